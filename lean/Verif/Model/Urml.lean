/-
Reader of URML files (src/discoursegraphs/readwrite/rst/urml.py): underspecified rhetorical structures.
The input is the content of a `<document>` element.
-/
import Verif.Model.RstGraph
import Verif.Model.Tiger

namespace Dg

/-- a `<segment>` element: its ID, its text (before the first child) and the texts of its children (`<sign>` elements) -/
structure UrmlSeg where
  id : String
  text : Option (List Char)
  signs : List (Option (List Char))
  deriving DecidableEq, Repr

/-- the tag of an argument of a relation -/
inductive UrmlRole
  | nucleus
  | satellite
  deriving DecidableEq, Repr

/-- a `<parRelation>` (`par`) or `<hypRelation>` element: its ID, its type (the name of the relation) and its children with their IDs.  Simplification: children are nuclei and satellites only. -/
structure UrmlRel where
  id : String
  par : Bool
  type : List Char
  args : List (UrmlRole × String)
  deriving DecidableEq, Repr

/-- a `<document>` element: its ID, its segments, its relations and all its nuclei and satellites (also those of other elements than the relations), each in document order -/
structure UrmlDoc where
  id : String
  segments : List UrmlSeg
  relations : List UrmlRel
  roles : List (UrmlRole × String)
  deriving DecidableEq, Repr

namespace DG

/-- `self.ns + ':' + id` -/
def urmlId (ns id : String) : NodeId := .str (qual ns id)

/-- urml.py:388-401 `extract_segment_types`: the type of a segment.  The last nucleus or satellite with the ID counts. -/
def urmlSegmentType (doc : UrmlDoc) (id : String) : List Char :=
  match (doc.roles.filter (fun r => r.2 = id)).getLast? with
  | some (.nucleus, _) => ['n', 'u', 'c', 'l', 'e', 'u', 's']
  | some (.satellite, _) => ['s', 'a', 't', 'e', 'l', 'l', 'i', 't', 'e']
  | none => ['i', 's', 'o', 'l', 'a', 't', 'e', 'd']

/-- rst/common.py:34-48 `get_segment_label` -/
def urmlSegmentLabel (id : String) (segType text : List Char) (ns : String) (tokenized : Bool) : String :=
  let p := String.ofList (['['] ++ (match segType with | c :: _ => [c] | [] => ['_']) ++ [']', ':'])
  if tokenized then p ++ ns ++ ":segment:" ++ id else p ++ id ++ String.ofList ([':', ' '] ++ text.take 20 ++ ['.', '.', '.'])

/-- urml.py:268, 274: the text of a segment -/
def urmlText (s : UrmlSeg) : List Char :=
  match s.signs with
  | [] => sanitizeString s.text
  | ts => sanitizeString (some (joinChars [' '] (ts.filterMap (fun t => t))))

/-- the text of an element as attribute value: a string or None -/
def optVal : Option (List Char) → Val
  | some t => strVal t
  | none => .atom .none

/-- urml.py:270-272, 275-281: the tokens of a segment that become nodes -/
def urmlTokens (tokenize : Bool) (s : UrmlSeg) : List (Option (List Char)) :=
  match s.signs with
  | [] => if tokenize then (splitWs (urmlText s)).map some else []
  | ts => ts

/-- `'{0}_{1}'.format(segment_id, segment_token_id)` -/
def urmlTokenId (ns seg : String) (i : Nat) : NodeId := .str (qual ns seg ++ String.ofList (['_'] ++ decimal i))

/-- urml.py:339-347 `__add_token` -/
def urmlAddToken (seg : String) (g : DG) (p : Option (List Char) × Nat) : Except PyErr DG := do
  let t := urmlTokenId g.ns seg p.2
  let g1 ← g.addNode t (.set [.str g.ns, .str (qual g.ns "token")]) (.dict [(qual g.ns "token", optVal p.1), ("label", optVal p.1)]) []
  let g2 := { g1 with tokens := g1.tokens ++ [t] }
  g2.addEdge (urmlId g2.ns seg) t (.set [.str g2.ns, .str (qual g2.ns "token")]) none .none [("edge_type", .atom (.str spanningRelation))]

/-- urml.py:248-289 `__add_segment`; the second component of the state is `self.edus` -/
def urmlAddSegment (doc : UrmlDoc) (tokenize : Bool) (st : DG × List NodeId) (s : UrmlSeg) : Except PyErr (DG × List NodeId) := do
  let n := urmlId st.1.ns s.id
  let g1 ← (urmlTokens tokenize s).zipIdx.foldlM (urmlAddToken s.id) st.1
  let g2 ← g1.addNode n (.set [.str g1.ns, .str (qual g1.ns "segment")])
    (.dict [(qual g1.ns "text", strVal (urmlText s)), ("label", .atom (.str (urmlSegmentLabel s.id (urmlSegmentType doc s.id) (urmlText s) g1.ns tokenize)))]) []
  return (g2, st.2 ++ [n])

/-- the tag of a relation -/
def urmlTag (r : UrmlRel) : List Char :=
  if r.par then ['p', 'a', 'r', 'R', 'e', 'l', 'a', 't', 'i', 'o', 'n'] else ['h', 'y', 'p', 'R', 'e', 'l', 'a', 't', 'i', 'o', 'n']

/-- `rel_attrs`, urml.py:305-307 -/
def urmlRelAttrs (ns : String) (r : UrmlRel) : Attrs :=
  [(qual ns "rel_name", strVal r.type), (qual ns "rel_type", strVal (urmlTag r)), ("label", .atom (.str (qual ns (String.ofList r.type))))]

/-- `rel_elems[tag]`, urml.py:320-331: the last child with the tag -/
def urmlArg (r : UrmlRel) (role : UrmlRole) : Option String := ((r.args.filter (fun a => a.1 = role)).getLast?).map Prod.snd

/-- urml.py:291-337 `__add_relation` -/
def urmlAddRelation (g : DG) (r : UrmlRel) : Except PyErr DG := do
  let n := urmlId g.ns r.id
  let g1 ← g.addNode n (.set [.str g.ns, .str (qual g.ns "relation")]) (.dict [(qual g.ns "rel_name", strVal r.type), (qual g.ns "rel_type", strVal (urmlTag r))]) []
  if r.par then
    r.args.foldlM (fun g a => g.addEdge (urmlId g.ns r.id) (urmlId g.ns a.2) (.set [.str g.ns]) none (.dict (urmlRelAttrs g.ns r)) [("edge_type", .atom (.str spanningRelation))]) g1
  else if r.args.length = 2 then
    match urmlArg r .nucleus, urmlArg r .satellite with
    | some nuc, some sat => do
      let g2 ← g1.addEdge n (urmlId g1.ns nuc) (.set [.str g1.ns]) none (.dict (urmlRelAttrs g1.ns r)) [("edge_type", .atom (.str dominanceRelation))]
      g2.addEdge (urmlId g2.ns nuc) (urmlId g2.ns sat) (.set [.str g2.ns]) none (.dict (urmlRelAttrs g2.ns r)) [("edge_type", .atom (.str dominanceRelation))]
    | _, _ => .error .assertion
  else .error .assertion

/-- `G.pred[n]` of networkx -/
def preds (g : DG) (n : NodeId) : List NodeId := (g.adj.filter (fun p => Dict.has p.2 n)).map Prod.fst

/-- `v < w` for node IDs in Python 2 -/
def nodeLt : NodeId → NodeId → Bool
  | .int a, .int b => decide (a < b)
  | .int _, .str _ => true
  | .str _, .int _ => false
  | .str a, .str b => decide (a < b)

/-- the larger one of two pairs (the first one if they are equal) -/
def pairMax (a b : Nat × NodeId) : Nat × NodeId :=
  if a.1 < b.1 ∨ (a.1 = b.1 ∧ nodeLt a.2 b.2 = true) then b else a

/-- networkx 1.11 `dag_longest_path` (algorithms/dag.py): `dist[n]`, i.e. the length of a longest path to `n` and the last node before `n` on it.
The code computes it in topological order and raises NetworkXUnfeasible if there is a cycle; here it is computed by recursion over the predecessors, where running out of `fuel` (the number of nodes) means that there is a cycle. -/
def dagDist (g : DG) : Nat → NodeId → Except PyErr (Nat × NodeId)
  | 0, _ => .error .unfeasible
  | fuel + 1, n => do
    let ds ← mapE (fun v => do let d ← g.dagDist fuel v; return (d.1 + 1, v)) (g.preds n)
    match ds with
    | [] => return (0, n)
    | d :: ds => return ds.foldl pairMax d

/-- networkx 1.11 `dag_longest_path`: the path back from `n`, last node first -/
def dagBack (g : DG) (depth : Nat) : Nat → NodeId → Except PyErr (List NodeId)
  | 0, n => return [n]
  | k + 1, n => do
    let d ← g.dagDist depth n
    let p ← g.dagBack depth k d.2
    return n :: p

/-- the entry of `dist` with the greatest value; of several ones the first one (the code takes any of them) -/
def distMax (a b : NodeId × (Nat × NodeId)) : NodeId × (Nat × NodeId) :=
  if a.2.1 < b.2.1 ∨ (a.2.1 = b.2.1 ∧ nodeLt a.2.2 b.2.2 = true) then b else a

/-- networkx 1.11 `dag_longest_path(G)`; the empty list if there are no edges.  (ValueError for a graph without nodes.) -/
def dagLongestPath (g : DG) : Except PyErr (List NodeId) := do
  let depth := g.nodes.length
  let ds ← mapE (fun n => do let d ← g.dagDist depth n; return (n, d)) (Dict.keys g.nodes)
  match ds with
  | [] => .error .value
  | d :: ds =>
    let best := ds.foldl distMax d
    if best.2.1 = 0 then return []
    else do
      let p ← g.dagBack depth best.2.1 best.1
      return p.reverse

/-- urml.py:236-246: the root -/
def urmlSetRoot (g : DG) : Except PyErr DG := do
  let path ← g.dagLongestPath
  match path with
  | [] => .error .index
  | r :: _ => do
    let m ← g.getAttr g.root "metadata"
    let g1 ← ({ g with root := r }).setAttr r "metadata" m
    g1.removeNode g.root

/-- urml.py:212-246 `__urml2graph` -/
def urml2graph (g : DG) (tokenize : Bool) (doc : UrmlDoc) : Except PyErr (DG × List NodeId) := do
  let st ← doc.segments.foldlM (urmlAddSegment doc tokenize) (g, [])
  let g1 ← doc.relations.foldlM urmlAddRelation st.1
  let g2 ← g1.urmlSetRoot
  return (g2, st.2)

/-- urml.py:158-210 `URMLDocumentGraph(document_elem, name, namespace, tokenize, precedence)`.
The result is the graph and the list of EDUs, which the code stores in the metadata of the root (lines 209-210; KeyError if the root has no metadata). -/
def urmlRead (name : Option String) (ns : String) (tokenize precedence : Bool) (doc : UrmlDoc) : Except PyErr (DG × List NodeId) := do
  let name' := match name with
    | some s => if s = "" then doc.id else s
    | none => doc.id
  let st ← urml2graph { init "" ns none with name := name' } tokenize doc
  let g ← if tokenize ∧ precedence then batch st.1.addPrecedenceRelations else .ok st.1
  let _ ← g.getAttr g.root "metadata"
  return (g, st.2)

end DG
end Dg
