/-
Model of the graph-to-tree part of src/discoursegraphs/readwrite/tree.py (lines 103-264) and of src/discoursegraphs/readwrite/freqt.py.
-/
import Verif.Model.Offsets
import Verif.Model.Util
import Verif.Model.Chains

namespace Dg

/-- consuming a generator completely, e.g. by `sorted()` or `list()` -/
def Gen.all {α : Type} (g : Gen α) : Except PyErr (List α) :=
  match g.2 with
  | none => .ok g.1
  | some e => .error e

/-- number of elements of `univ` not in `vis` -/
def unvisited (univ vis : List NodeId) : Nat := (univ.filter (fun n => decide (n ∉ vis))).length

/-- size of the queue: one step per queue entry and per child -/
def queueSize : List (NodeId × List NodeId) → Nat
  | [] => 0
  | (_, cs) :: q => cs.length + 1 + queueSize q

theorem unvisited_lt {univ vis : List NodeId} {c : NodeId} (hu : c ∈ univ) (hv : c ∉ vis) : unvisited univ (c :: vis) < unvisited univ vis := by
  unfold unvisited
  induction univ with
  | nil => simp at hu
  | cons x univ ih =>
    have le : ∀ l : List NodeId, (l.filter (fun n => decide (n ∉ c :: vis))).length ≤ (l.filter (fun n => decide (n ∉ vis))).length := by
      intro l
      induction l with
      | nil => simp
      | cons y l ih =>
        rw [List.filter_cons, List.filter_cons]
        by_cases h1 : y ∈ vis
        · simp [h1]; simpa using ih
        · by_cases h2 : y = c
          · simp [h2, hv]; simp at ih; omega
          · simp [h1, h2]; simpa using ih
    rw [List.filter_cons, List.filter_cons]
    by_cases hx : x = c
    · subst hx
      have := le univ
      simp [hv] at this ⊢
      omega
    · have hu' : c ∈ univ := by
        rcases List.mem_cons.1 hu with h | h
        · exact absurd h.symm hx
        · exact h
      have := ih hu'
      by_cases h1 : x ∈ vis
      · simp [h1] at this ⊢; exact this
      · simp [h1, hx] at this ⊢; exact this

/-- the `while queue` loop of sorted_bfs_edges, tree.py:193-204: `queue` holds the parents with the children their iterators have not yielded yet, `vis` is the
set `visited`, `children` gives the sorted children of a node (or an exception), `univ` are the nodes of the graph. -/
def bfsLoop (children : NodeId → Except PyErr (List NodeId)) (univ : List NodeId) : List (NodeId × List NodeId) → List NodeId → Gen (NodeId × NodeId)
  | [], _ => ([], none)
  | (_, []) :: q, vis => bfsLoop children univ q vis
  | (p, c :: cs) :: q, vis =>
    if _hc : c ∈ vis then bfsLoop children univ ((p, cs) :: q) vis
    else if _hu : c ∈ univ then
      match children c with
      | .error e => ([(p, c)], some e)
      | .ok gs =>
        let r := bfsLoop children univ ((p, cs) :: q ++ [(c, gs)]) (c :: vis)
        ((p, c) :: r.1, r.2)
    else ([(p, c)], some .networkx)
termination_by q vis => (unvisited univ vis, queueSize q)
decreasing_by
  · apply Prod.Lex.right; simp [queueSize]
  · apply Prod.Lex.right; simp [queueSize]
  · apply Prod.Lex.left; exact unvisited_lt _hu _hc

namespace DG

/-- `get_child_nodes(docgraph, parent_node_id)`, tree.py:103-110 -/
def getChildNodes (g : DG) (n : NodeId) : Gen NodeId := g.selectNeighborsByEdgeAttribute n (some "edge_type") (.many ["dominates"])

/-- loop of get_parents over the incoming edges, tree.py:133-135: KeyError if an edge has no edge_type -/
def dominatingSources : List (NodeId × NodeId × Key × Attrs) → Except PyErr (List NodeId)
  | [] => .ok []
  | e :: es =>
    match Dict.find e.2.2.2 "edge_type" with
    | none => .error .key
    | some t => do
      let rest ← dominatingSources es
      .ok (if t = .atom (.str "dominates") then e.1 :: rest else rest)

/-- `get_parents(docgraph, child_node, strict=True)`, tree.py:113-140; `in_edges` of an unknown node raises NetworkXError -/
def getParents (g : DG) (n : NodeId) : Except PyErr (List NodeId) :=
  if Dict.has g.nodes n then do
    let ps ← dominatingSources (g.inEdges n)
    if ps.length > 1 then .error .value else .ok ps
  else .error .networkx

/-- the `while` loop of horizontal_positions, tree.py:156-160; `fuel` bounds the number of iterations (the loop does not end on a cycle) -/
def climb (g : DG) (i : Nat) : Nat → NodeId → Dict NodeId Nat → Except PyErr (Dict NodeId Nat)
  | 0, _, _ => .error .recursion
  | fuel + 1, n, path => do
    let ps ← g.getParents n
    match ps with
    | [] => .ok path
    | p :: _ => climb g i fuel p (if Dict.has path n then path else Dict.put path n i)

/-- the loop over the tokens, tree.py:155-160 -/
def climbAll (g : DG) (fuel : Nat) : Nat → List NodeId → Dict NodeId Nat → Except PyErr (Dict NodeId Nat)
  | _, [], path => .ok path
  | i, t :: ts, path => do
    let path' ← g.climb i fuel t path
    climbAll g fuel (i + 1) ts path'

/-- an element of a 'tokens' attribute as a node ID -/
def atomId : Atom → Except PyErr NodeId
  | .int i => .ok (.int i)
  | .str s => .ok (.str s)
  | _ => .error .networkx

/-- iterating over the 'tokens' attribute of a sentence root -/
def tokenIds : Val → Except PyErr (List NodeId)
  | .list xs => mapE atomId xs
  | _ => .error .type

/-- `horizontal_positions(docgraph, sentence_root)`, tree.py:143-161, for a given sentence root -/
def horizontalPositions (g : DG) (fuel : Nat) (root : NodeId) : Except PyErr (Dict NodeId Nat) :=
  if root = g.root then g.climbAll fuel 0 g.tokens []
  else
    match Dict.find g.nodes root with
    | none => .error .key
    | some a =>
      match Dict.find a "tokens" with
      | none => g.climbAll fuel 0 g.tokens []
      | some v => do
        let ts ← tokenIds v
        g.climbAll fuel 0 ts [(root, 0)]

/-- comparison of the sort keys -/
def posLe (xpos : Dict NodeId Nat) (a b : NodeId) : Bool := decide ((Dict.find xpos a).getD 0 ≤ (Dict.find xpos b).getD 0)

/-- `sorted(get_child_nodes(G, n), key=lambda x: xpos[x])`, tree.py:190-192, 200-202: KeyError if a child has no position -/
def sortedChildren (g : DG) (xpos : Dict NodeId Nat) (n : NodeId) : Except PyErr (List NodeId) := do
  let cs ← (g.getChildNodes n).all
  if cs.all (fun c => Dict.has xpos c) then .ok (pySorted (posLe xpos) cs) else .error .key

/-- `sorted_bfs_edges(G, source)`, tree.py:164-204, for a given source (`None` stands for the root) -/
def sortedBfsEdges (g : DG) (fuel : Nat) (source : NodeId) : Gen (NodeId × NodeId) :=
  match g.horizontalPositions fuel source with
  | .error e => ([], some e)
  | .ok xpos =>
    match g.sortedChildren xpos source with
    | .error e => ([], some e)
    | .ok cs => bfsLoop (g.sortedChildren xpos) (Dict.keys g.nodes) [(source, cs)] [source]

/-- `successors[src].append(target)` for all edges, tree.py:226-228 -/
def collectSuccessors (es : List (NodeId × NodeId)) : Dict NodeId (List NodeId) :=
  es.foldl (fun d e => Dict.put d e.1 ((Dict.find d e.1).getD [] ++ [e.2])) []

/-- `sorted_bfs_successors(G, source)`, tree.py:207-229 -/
def sortedBfsSuccessors (g : DG) (fuel : Nat) (source : NodeId) : Except PyErr (Dict NodeId (List NodeId)) := do
  let es ← (g.sortedBfsEdges fuel source).all
  .ok (collectSuccessors es)

end DG

/-- `FREQT_BRACKET_ESCAPE`, freqt.py:17; the order of the dict does not matter (C45) -/
def freqtEscape : Dict String String := [("(", "-LRB-"), (")", "-RRB-")]

/-- `escape_func(x)`, freqt.py:18: `re.sub` raises TypeError unless `x` is a string -/
def freqtEsc : Val → Except PyErr (List Char)
  | .atom (.str s) => (multipleReplace freqtEscape s).map String.toList
  | _ => .error .type

namespace DG

/-- a node ID as a value -/
def idVal : NodeId → Val
  | .int i => .atom (.int i)
  | .str s => .atom (.str s)

/-- `node2freqt(docgraph, node_id, child_str, include_pos)`, freqt.py:21-36 -/
def node2freqt (g : DG) (includePos : Bool) (n : NodeId) (child : List Char) : Except PyErr (List Char) :=
  match Dict.find g.nodes n with
  | none => .error .key
  | some a =>
    match Dict.find a (qual g.ns "token") with
    | some tok => do
      let t ← freqtEsc tok
      if includePos then
        let p ← freqtEsc ((Dict.find a (qual g.ns "pos")).getD (.atom (.str "")))
        .ok ("(".toList ++ p ++ "(".toList ++ t ++ ")".toList ++ child ++ ")".toList)
      else .ok ("(".toList ++ t ++ child ++ ")".toList)
    | none => do
      let l ← freqtEsc ((Dict.find a "label").getD (idVal n))
      .ok ("(".toList ++ l ++ child ++ ")".toList)

/-- `sentence2freqt(docgraph, root, successors, include_pos)`, freqt.py:39-55, for given successors; `fuel` = remaining recursion depth -/
def sentence2freqt (g : DG) (includePos : Bool) (succ : Dict NodeId (List NodeId)) : Nat → NodeId → Except PyErr (List Char)
  | 0, _ => .error .recursion
  | fuel + 1, root =>
    match Dict.find succ root with
    | some cs => do
      let strs ← mapE (sentence2freqt g includePos succ fuel) cs
      g.node2freqt includePos root strs.flatten
    | none => g.node2freqt includePos root []

/-- `docgraph2freqt(docgraph, root, include_pos)` for a given root, freqt.py:66-68 -/
def rootFreqt (g : DG) (fuel : Nat) (includePos : Bool) (root : NodeId) : Except PyErr (List Char) := do
  let succ ← g.sortedBfsSuccessors fuel root
  g.sentence2freqt includePos succ fuel root

/-- `docgraph2freqt(docgraph, None, include_pos)`, freqt.py:61-65; write_freqt (freqt.py:71-79) writes the same lines, each followed by a line break -/
def docgraph2freqt (g : DG) (fuel : Nat) (includePos : Bool) : Except PyErr (List Char) := do
  let lines ← mapE (g.rootFreqt fuel includePos) g.sentences
  .ok (joinChars ['\n'] lines)

/-- `u"{}".format(x)` of an attribute value; only strings are modelled -/
def fmtVal : Val → Except PyErr (List Char)
  | .atom (.str s) => .ok s.toList
  | _ => .error .type

/-- `bool(x) * ' '` -/
def spaceIf (b : Bool) : List Char := if b then [' '] else []

/-- `node2bracket(docgraph, node_id, child_str)`, tree.py:232-246.  Simplification: attribute values that are no strings are reported as TypeError. -/
def node2bracket (g : DG) (n : NodeId) (child : List Char) : Except PyErr (List Char) :=
  match Dict.find g.nodes n with
  | none => .error .key
  | some a =>
    match Dict.find a (qual g.ns "token") with
    | some tok => do
      let p ← fmtVal ((Dict.find a (qual g.ns "pos")).getD (.atom (.str "")))
      let t ← fmtVal tok
      .ok ("(".toList ++ p ++ spaceIf (!p.isEmpty) ++ t ++ spaceIf (!child.isEmpty) ++ child ++ ")".toList)
    | none => do
      let l ← fmtVal ((Dict.find a "label").getD (.atom (.str "")))
      .ok ("(".toList ++ l ++ spaceIf (!l.isEmpty && !child.isEmpty) ++ child ++ ")".toList)

/-- `tree2bracket(docgraph, root, successors)`, tree.py:249-264, for given successors; `fuel` = remaining recursion depth -/
def tree2bracketAux (g : DG) (succ : Dict NodeId (List NodeId)) : Nat → NodeId → Except PyErr (List Char)
  | 0, _ => .error .recursion
  | fuel + 1, root =>
    match Dict.find succ root with
    | some cs => do
      let strs ← mapE (tree2bracketAux g succ fuel) cs
      g.node2bracket root (joinChars [' '] strs)
    | none => g.node2bracket root []

/-- `tree2bracket(docgraph, root)`, tree.py:249-264 -/
def tree2bracket (g : DG) (fuel : Nat) (root : NodeId) : Except PyErr (List Char) := do
  let succ ← g.sortedBfsSuccessors fuel root
  g.tree2bracketAux succ fuel root

end DG
end Dg
