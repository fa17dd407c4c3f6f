/-
Model of token mapping, relabelling and merging:
src/discoursegraphs/discoursegraph.py lines 686-743, 763-873 and src/discoursegraphs/relabel.py.
-/
import Verif.Model.Offsets

namespace Dg
namespace DG

/-- the loop of create_token_mapping, discoursegraph.py:822-838, over the not yet consumed tokens of the new and of the old graph.
Both token generators are advanced in lockstep; `.next()` on the exhausted old generator raises StopIteration.
Simplification: with `verbose=True` building the message of the ValueError may itself fail for token values that are not
strings; the message is not modelled. -/
def tokenMappingLoop (old new : DG) : List NodeId → List NodeId → Dict NodeId NodeId → Except PyErr (Dict NodeId NodeId)
  | [], _, m => .ok m
  | n :: ns, olds, m => do
    let newTok ← new.getToken n
    match olds with
    | [] => .error .stopIteration
    | o :: os =>
      let oldTok ← old.getToken o
      if newTok ≠ oldTok then .error .value
      else tokenMappingLoop old new ns os (Dict.put m o n)

/-- `create_token_mapping(docgraph_with_old_names, docgraph_with_new_names)`, discoursegraph.py:790-838 -/
def createTokenMapping (old new : DG) : Except PyErr (Dict NodeId NodeId) :=
  tokenMappingLoop old new new.tokens old.tokens []

/-- `old == target and new or target`, relabel.py:129, 133: if `new` is falsy (0 or '') this is `target`. -/
def renameEnd (old new x : NodeId) : NodeId := if x = old then (if new.truthy then new else x) else x

/-- the list `new_edges` of relabel.py:128-135 (multigraph, directed) -/
def newEdges (g : DG) (old new : NodeId) : List EdgeItem :=
  (g.outEdges old).map (fun e => EdgeItem.e4 new (renameEnd old new e.2.1) e.2.2.1 e.2.2.2) ++
  (g.inEdges old).map (fun e => EdgeItem.e4 (renameEnd old new e.1) new e.2.2.1 e.2.2.2)

/-- loop body of _relabel_inplace for `mapping[old] = new`, relabel.py:119-143.  `G.add_node(new, layers, attr_dict=G.node[old])` shares the
attribute dict with the old node, which is removed immediately afterwards. -/
def relabelOne (g : DG) (old new : NodeId) : DG × Option PyErr :=
  match Dict.find g.nodes old with
  | none => (g, some .key)
  | some a =>
    match layersEntry a with
    | .error e => (g, some e)
    | .ok layers =>
      match g.addNode new layers (.dict a) [] with
      | .error e => (g, some e)
      | .ok g1 =>
        match g1.removeNode old with
        | .error e => (g1, some e)
        | .ok g2 => g2.addEdgesFrom (g1.newEdges old new) .none []

/-- the `for old in nodes` loop, relabel.py:118-143; labels that are not in the mapping are skipped -/
def relabelLoop (m : Dict NodeId NodeId) : DG → List NodeId → DG × Option PyErr
  | g, [] => (g, none)
  | g, old :: rest =>
    match Dict.find m old with
    | none => relabelLoop m g rest
    | some new =>
      match g.relabelOne old new with
      | (g', none) => relabelLoop m g' rest
      | (g', some e) => (g', some e)

/-- `_relabel_inplace(G, mapping)`, relabel.py:96-144, given the order in which the labels are processed:
`none` stands for "networkx' topological sort found a cycle".  Which orders are possible is `RelabelOrder`. -/
def relabelInplace (g : DG) (m : Dict NodeId NodeId) : Option (List NodeId) → DG × Option PyErr
  | none => (g, some .unfeasible)
  | some order => relabelLoop m g order

/-- `y` occurs before `x` in the list -/
def Before (l : List NodeId) (y x : NodeId) : Prop := ∃ pre post, l = pre ++ x :: post ∧ y ∈ pre

/-- `order` is the reverse of a topological order of the graph `D` of relabel.py:102-103: every label of the mapping exactly once, and
each new label before the old one it replaces (self-loops of `D` are removed) -/
def ReverseTopological (m : Dict NodeId NodeId) (order : List NodeId) : Prop :=
  order.Nodup ∧ (∀ x, x ∈ order ↔ x ∈ Dict.keys m ∨ x ∈ Dict.vals m) ∧
  ∀ old new, (old, new) ∈ m → old ≠ new → Before order new old

/-- the processing orders that relabel.py:97-113 can choose: any order of the old labels (a Python set) if old and new labels are
disjoint, otherwise the reverse of a topological order, or none if there is none -/
def RelabelOrder (m : Dict NodeId NodeId) (r : Option (List NodeId)) : Prop :=
  if (∃ x, x ∈ Dict.keys m ∧ x ∈ Dict.vals m) then
    match r with
    | some order => ReverseTopological m order
    | none => ∀ order, ¬ ReverseTopological m order
  else ∃ order, r = some order ∧ order.Perm (Dict.keys m)

/-- what Python leaves to chance while renaming tokens: the processing order of the labels, and the order of `old2new.values()` -/
structure Sched where
  order : Option (List NodeId)
  vals : List NodeId

/-- the schedules possible for a mapping -/
def Sched.Valid (s : Sched) (m : Dict NodeId NodeId) : Prop := RelabelOrder m s.order ∧ s.vals.Perm (Dict.vals m)

/-- effect of rename_tokens on the graph with the old names, discoursegraph.py:782-787 -/
def renameTokens (old : DG) (m : Dict NodeId NodeId) (s : Sched) : DG × Option PyErr :=
  match old.relabelInplace m s.order with
  | (g, some e) => (g, some e)
  | (g, none) => (if m.isEmpty then g else { g with tokens := s.vals }, none)

/-- `docgraph_with_new_names.renamed_nodes` after rename_tokens, discoursegraph.py:777-780 -/
def updRenamed (new : DG) (m : Dict NodeId NodeId) : DG := { new with renamed := some (Dict.upd (new.renamed.getD []) m) }

/-- merge_graphs' record of merged roots, discoursegraph.py:696-699 -/
def noteRoot (g other : DG) : DG := { g with mergedRoots := some ((g.mergedRoots.getD []) ++ [other.root]) }

/-- `self.ns+':token' not in self.node[node_id]` -/
def lacksToken (g : DG) (n : NodeId) : Except PyErr Bool :=
  match Dict.find g.nodes n with
  | none => .error .key
  | some a => .ok (!Dict.has a (qual g.ns "token"))

/-- loop body copying a token attribute to the own namespace, discoursegraph.py:705-709 -/
def copyToken (other : DG) (g : DG) (n : NodeId) : Except PyErr DG := do
  let b ← other.istoken n none
  if b then
    let c ← g.lacksToken n
    if c then
      let tok ← other.getToken n
      g.setAttr n (qual g.ns "token") tok
    else .ok g
  else .ok g

/-- the loop discoursegraph.py:705-709 -/
def copyTokens (other : DG) : DG → List NodeId → DG × Option PyErr
  | g, [] => (g, none)
  | g, n :: ns =>
    match copyToken other g n with
    | .error e => (g, some e)
    | .ok g' => copyTokens other g' ns

/-- the three conditional copies of name, tokens and sentences, discoursegraph.py:712-720 -/
def copyLists (g other : DG) : DG :=
  let g1 := if other.name ≠ "" ∧ g.name = "" then { g with name := other.name } else g
  let g2 := if other.tokens ≠ [] ∧ g1.tokens = [] then { g1 with tokens := other.tokens } else g1
  if other.sentences ≠ [] ∧ g2.sentences = [] then { g2 with sentences := other.sentences } else g2

/-- `a.update(b)` on metadata values: AttributeError if the receiver is no dict (or set), TypeError/ValueError for a non-dict argument
are both reported as TypeError -/
def updMeta : Val → Val → Except PyErr Val
  | .dict a, .dict b => .ok (.dict (Dict.upd a b))
  | .dict _, _ => .error .type
  | _, _ => .error .attribute

/-- copying the metadata in merge_rootnodes, discoursegraph.py:731-734 -/
def mergeMeta (g other : DG) : Except PyErr DG :=
  match Dict.find other.nodes other.root with
  | none => .error .key
  | some a =>
    match Dict.find a "metadata" with
    | none => .ok g
    | some m => do
      let own ← g.getAttr g.root "metadata"
      let v ← updMeta own m
      g.setAttr g.root "metadata" v

/-- the loop redirecting the edges of the other root, discoursegraph.py:740-742: `add_edge(self.root, target, attr_dict=attrs)` without
`layers`.  (`add_edge` also overwrites the `layers` of the edge in the *other* graph, which is not modelled.) -/
def moveRootEdges : DG → List (NodeId × NodeId × Key × Attrs) → DG × Option PyErr
  | g, [] => (g, none)
  | g, e :: es =>
    match g.addEdge g.root e.2.1 (.atom .none) none (.dict e.2.2.2) [] with
    | .error err => (g, some err)
    | .ok g' => moveRootEdges g' es

/-- `merge_rootnodes`, discoursegraph.py:725-743 -/
def mergeRootnodes (g other : DG) : DG × Option PyErr :=
  match g.mergeMeta other with
  | .error e => (g, some e)
  | .ok g1 =>
    if (other.inEdges other.root).isEmpty then
      match moveRootEdges g1 (other.outEdges other.root) with
      | (g2, some e) => (g2, some e)
      | (g2, none) => g2.lift (g2.removeNode other.root)
    else (g1, some .assertion)

/-- merge_graphs after the renaming of the other graph's tokens, discoursegraph.py:703-723 -/
def mergeRenamed (g other : DG) : DG × Option PyErr :=
  match g.addNodesFrom [] (other.nodes.map (fun p => NodeItem.tup p.1 p.2)) with
  | (g1, some e) => (g1, some e)
  | (g1, none) =>
    match copyTokens other g1 (Dict.keys other.nodes) with
    | (g2, some e) => (g2, some e)
    | (g2, none) =>
      match g2.addEdgesFrom (other.edges.map (fun e => EdgeItem.e3 e.1 e.2.1 e.2.2.2)) .none [] with
      | (g3, some e) => (g3, some e)
      | (g3, none) => (g3.copyLists other).mergeRootnodes other

/-- `self.merge_graphs(other)`, discoursegraph.py:686-723: the resulting `self` and the exception, if any.  `self` and `other` are different
objects. -/
def mergeGraphs (g other : DG) (s : Sched) : DG × Option PyErr :=
  let g0 := g.noteRoot other
  match createTokenMapping other g0 with
  | .error e => (g0, some e)
  | .ok m =>
    let g1 := g0.updRenamed m
    match other.renameTokens m s with
    | (_, some e) => (g1, some e)
    | (other', none) => g1.mergeRenamed other'

end DG

/-- `get_kwic(tokens, index, context_window)`, discoursegraph.py:843-873, for `0 ≤ index` and `0 ≤ context_window`: IndexError beyond the end -/
def getKwic {α : Type} (tokens : List α) (index window : Nat) : Except PyErr (List α × α × List α) :=
  let n := tokens.length
  let startBefore := index - window
  let before := (tokens.drop startBefore).take (index - startBefore)
  let startAfter := min n (index + 1)
  let endAfter := min n (index + window + 1)
  let after := (tokens.drop startAfter).take (endAfter - startAfter)
  match tokens[index]? with
  | none => .error .index
  | some k => .ok (before, k, after)

end Dg
