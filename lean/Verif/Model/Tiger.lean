/-
The TigerXML reader, src/discoursegraphs/readwrite/tiger.py.  XML parsing (lxml) is not modelled: a file is given by the attributes of its elements, in document order.
-/
import Verif.Model.Anaphoricity
import Verif.Model.Offsets
import Verif.Model.Select
import Verif.Model.Util

namespace Dg

/-- `element.attrib` -/
abbrev XAttrs := Dict String String

/-- a `<t>` element with its `<secedge>` children -/
structure TigerT where
  attrs : XAttrs
  secs : List XAttrs
  deriving DecidableEq, Repr

/-- an `<nt>` element with its `<edge>` and `<secedge>` children -/
structure TigerNt where
  attrs : XAttrs
  edges : List XAttrs
  secs : List XAttrs
  deriving DecidableEq, Repr

/-- an `<s>` element with exactly one `<graph>` child, whose attributes are `graph`.  (Other `<s>` elements are not modelled: without `<graph>` the reader raises AttributeError.) -/
structure TigerS where
  attrs : XAttrs
  graph : XAttrs
  terms : List TigerT
  nts : List TigerNt
  deriving DecidableEq, Repr

/-- `element.attrib[k]` -/
def elemAttr (d : XAttrs) (k : String) : Except PyErr String :=
  match Dict.find d k with
  | some v => .ok v
  | none => .error .key

namespace DG

/-- `add_prefix(element.attrib, self.ns+':')` (strings are attribute values as they are) -/
def tigerFeats (ns : String) (d : XAttrs) : Attrs := addPrefix (d.map (fun kv => (kv.1, Val.atom (.str kv.2)))) (ns ++ ":")

/-- `d[k]` for a dict of attributes -/
def featAt (d : Attrs) (k : String) : Except PyErr Val :=
  match Dict.find d k with
  | some v => .ok v
  | none => .error .key

/-- tiger.py:210-211, 238-239, 257-258: the target node is added if it does not exist -/
def tigerTarget (g : DG) (n : NodeId) : Except PyErr DG :=
  if Dict.has g.nodes n then .ok g else g.addNode n (.set [.str g.ns, .str (qual g.ns "secedge")]) .none []

/-- tiger.py:207-215: a `<secedge>` of a terminal -/
def tigerTermSec (u : NodeId) (g : DG) (e : XAttrs) : Except PyErr DG := do
  let to ← elemAttr e "idref"
  let feats := tigerFeats g.ns e
  let g1 ← g.tigerTarget (.str to)
  g1.addEdge u (.str to) (.set [.str g1.ns, .str (qual g1.ns "secedge")]) none (.dict feats) [("edge_type", .atom (.str "points_to"))]

/-- tiger.py:193-215: a terminal -/
def tigerTerm (g : DG) (t : TigerT) : Except PyErr DG := do
  let id ← elemAttr t.attrs "id"
  let feats := tigerFeats g.ns t.attrs
  let word ← featAt feats (qual g.ns "word")
  let g1 ← g.addNode (.str id) (.set [.str g.ns, .str (qual g.ns "token")]) (.dict (Dict.put feats (qual g.ns "token") word)) [("label", word)]
  t.secs.foldlM (tigerTermSec (.str id)) g1

/-- `self.node[n].update(d)`: KeyError for an unknown node -/
def updateNode (g : DG) (n : NodeId) (d : Attrs) : Except PyErr DG :=
  match Dict.find g.nodes n with
  | none => .error .key
  | some a => .ok { g with nodes := Dict.put g.nodes n (Dict.upd a d) }

/-- tiger.py:243 `self.ns+':token' in self.node[to_id]['layers']` -/
def hasTokenLayer (g : DG) (n : NodeId) : Except PyErr Bool := do
  let v ← g.getAttr n "layers"
  match v with
  | .set xs => .ok (decide (Atom.str (qual g.ns "token") ∈ xs))
  | _ => .error .type

/-- tiger.py:236-252: an `<edge>` of a nonterminal.  The second component of the state is the variable `edge_attribs`, which outlives the loop. -/
def tigerEdge (u : NodeId) (st : DG × Option Attrs) (e : XAttrs) : Except PyErr (DG × Option Attrs) := do
  let to ← elemAttr e "idref"
  let g1 ← st.1.tigerTarget (.str to)
  let feats := tigerFeats g1.ns e
  let tok ← g1.hasTokenLayer (.str to)
  let label ← featAt feats (qual g1.ns "label")
  let g2 ← g1.addEdge u (.str to) (.set [.str g1.ns, .str (qual g1.ns "edge")]) none (.dict feats)
    [("label", label), ("edge_type", .atom (.str (if tok then "spans" else "dominates")))]
  return (g2, some feats)

/-- `edge_attribs[self.ns+':label']` in tiger.py:263: the variable of the preceding loop; NameError (UnboundLocalError) if there was no `<edge>` so far -/
def lastLabel (g : DG) : Option Attrs → Except PyErr Val
  | none => .error .name
  | some d => featAt d (qual g.ns "label")

/-- tiger.py:255-264: a `<secedge>` of a nonterminal -/
def tigerNtSec (u : NodeId) (last : Option Attrs) (g : DG) (e : XAttrs) : Except PyErr DG := do
  let to ← elemAttr e "idref"
  let g1 ← g.tigerTarget (.str to)
  let feats := tigerFeats g1.ns e
  let label ← g1.lastLabel last
  g1.addEdge u (.str to) (.set [.str g1.ns, .str (qual g1.ns "secedge")]) none (.dict feats) [("label", label), ("edge_type", .atom (.str "points_to"))]

/-- tiger.py:229-233 -/
def tigerNtNode (g : DG) (n : NodeId) (feats : Attrs) : Except PyErr DG :=
  if Dict.has g.nodes n then g.updateNode n feats
  else g.addNode n (.set [.str g.ns, .str (qual g.ns "syntax")]) (.dict feats) []

/-- tiger.py:224-264: a nonterminal -/
def tigerNt (st : DG × Option Attrs) (nt : TigerNt) : Except PyErr (DG × Option Attrs) := do
  let id ← elemAttr nt.attrs "id"
  let feats := tigerFeats st.1.ns nt.attrs
  let cat ← featAt feats (qual st.1.ns "cat")
  let g1 ← st.1.tigerNtNode (.str id) (Dict.put feats "label" cat)
  let st2 ← nt.edges.foldlM (tigerEdge (.str id)) (g1, st.2)
  let g3 ← nt.secs.foldlM (tigerNtSec (.str id) st2.2) st2.1
  return (g3, st2.2)

/-- the IDs of the terminals, tiger.py:194-195 (collected in the loop over the terminals, which raises the same KeyError) -/
def tigerIds (s : TigerS) : Except PyErr (List NodeId) :=
  mapE (fun t : TigerT => do let id ← elemAttr t.attrs "id"; return NodeId.str id) s.terms

/-- tiger.py:173-264 `__tigersentence2graph` -/
def tigerSentence2graph (g : DG) (s : TigerS) : Except PyErr DG := do
  let g1 ← g.addNode g.root (.set [.str g.ns, .str (qual g.ns "sentence"), .str (qual g.ns "sentence:root"), .str (qual g.ns "syntax")]) .none []
  let g2 ← s.terms.foldlM tigerTerm g1
  let ids ← tigerIds s
  let g3 ← g2.setAttr g2.root "tokens" (.list ((naturalSorted ids).map idAtom))
  let g4 := { g3 with tokens := naturalSorted ids }
  let st ← s.nts.foldlM tigerNt (g4, none)
  return st.1
where
  /-- a node ID as an element of a list -/
  idAtom : NodeId → Atom
    | .str s => .str s
    | .int i => .int i

/-- `graph.degree(n)`: number of outgoing and incoming edges -/
def degree (g : DG) (n : NodeId) : Nat := (g.outEdges n).length + (g.inEdges n).length

/-- tiger.py:319-341 `get_unconnected_nodes` -/
def getUnconnectedNodes (g : DG) : List NodeId := (Dict.keys g.nodes).filter (fun n => decide (g.degree n = 0 ∧ g.nodes.length > 1))

/-- tiger.py:274-281: a virtual root, if the root is a token -/
def tigerVroot (g : DG) : Except PyErr DG := do
  let tok ← g.istoken g.root none
  if tok then
    let g1 := { g with root := .str (qual g.ns "VROOT") }
    g1.addNode g1.root (.set [.str "tiger", .str "tiger:syntax", .str "tiger:sentence", .str "tiger:sentence:root"]) .none []
  else return g

/-- tiger.py:284-287 -/
def tigerAttach (g : DG) (n : NodeId) : Except PyErr DG :=
  g.addEdge g.root n (.set [.str g.ns, .str (qual g.ns "sentence"), .str (qual g.ns "unconnected")]) none .none [("edge_type", .atom (.str "dominates"))]

/-- tiger.py:266-287 `__repair_unconnected_nodes` -/
def tigerRepair (g : DG) : Except PyErr DG := do
  let ns := g.getUnconnectedNodes
  let g1 ← g.tigerVroot
  ns.foldlM tigerAttach g1

/-- tiger.py:133-171 `TigerSentenceGraph(sentence, namespace)`.  (Lines 162-168 compute a dict of sentence attributes that is not used.) -/
def tigerSentence (ns : String) (s : TigerS) : Except PyErr DG := do
  let g0 := init "" ns none
  let g1 ← g0.removeNode g0.root
  let root ← elemAttr s.graph "root"
  let g2 := { g1 with tokens := [], root := .str root, name := (Dict.find s.attrs "id").getD "" }
  let g3 ← g2.tigerSentence2graph s
  g3.tigerRepair

/-- a batch operation called by a reader: an exception ends the reader -/
def batch (r : DG × Option PyErr) : Except PyErr DG :=
  match r.2 with
  | none => .ok r.1
  | some e => .error e

/-- tiger.py:93-116 `__add_sentence_to_document`: the sentence graph has the default namespace "tiger" -/
def tigerAddSentence (g : DG) (s : TigerS) : Except PyErr DG := do
  let sg ← tigerSentence "tiger" s
  let g1 := { g with tokens := g.tokens ++ sg.tokens }
  let g2 ← batch (g1.addNodesFrom [] (sg.nodes.map (fun p => NodeItem.tup p.1 p.2)))
  let g3 ← batch (g2.addEdgesFrom (sg.edges.map (fun e => EdgeItem.e3 e.1 e.2.1 e.2.2.2)) .none [])
  let g4 ← g3.addEdge g3.root sg.root (.set [.str g3.ns, .str (qual g3.ns "sentence")]) none .none [("edge_type", .atom (.str "dominates"))]
  return { g4 with sentences := g4.sentences ++ [sg.root] }

/-- tiger.py:57-91 `TigerDocumentGraph` for a file with the given sentences (and the name, which is computed in line 84) -/
def tigerRead (name ns : String) (ss : List TigerS) : Except PyErr DG := do
  let g ← ss.foldlM tigerAddSentence { init "" ns none with name := name }
  return { g with sentences := naturalSorted g.sentences }

/-- `graph.out_degree(n)` -/
def outDegree (g : DG) (n : NodeId) : Nat := (g.outEdges n).length

/-- tiger.py:290-316 `_get_terminals_and_nonterminals`.  The nodes are collected in two sets, so that their order before sorting is arbitrary; here it is the node order.  (Both lists are sorted by a stable sort, so that only IDs with equal sort key are affected.) -/
def terminalsAndNonterminals (g : DG) : List NodeId × List NodeId :=
  let ns := Dict.keys g.nodes
  (naturalSorted (ns.filter (fun n => !decide (g.outDegree n > 0))), naturalSorted (ns.filter (fun n => decide (g.outDegree n > 0))))

/-- tiger.py:365-368 -/
def subordinateTarget (g : DG) (e : NodeId × NodeId × Key × Attrs) : Except PyErr (List NodeId) := do
  let cat ← (match Dict.find g.nodes e.1 with
    | some a => Except.ok (Dict.find a "tiger:cat")
    | none => Except.error PyErr.key)
  if cat = some (.atom (.str "S")) then do
    let tok ← g.istoken e.2.1 none
    return (if tok then [] else [e.2.1])
  else return []

/-- tiger.py:344-369 `get_subordinate_clauses` -/
def getSubordinateClauses (g : DG) : Except PyErr (List NodeId) :=
  let es := g.selectEdgesByAttribute (some "tiger:label") (.many ["MO", "RC", "SB"])
  match es.2 with
  | some e => .error e
  | none => do
    let xs ← mapE g.subordinateTarget es.1
    return xs.flatten

end DG
end Dg
