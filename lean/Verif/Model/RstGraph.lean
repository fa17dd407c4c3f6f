/-
The graph reader for the .rs3 format, src/discoursegraphs/readwrite/rst/rs3/rs3graph.py, from the parsed XML on (lxml is not modelled), and the queries on such graphs.
-/
import Verif.Model.Rs3
import Verif.Model.ConllRead
import Verif.Model.Tiger

namespace Dg

/-- util.py:253-262 `sanitize_string` (str and unicode are identified) -/
def sanitizeString : Option (List Char) → List Char
  | some s => stripUni s
  | none => []

namespace DG

/-- `self.ns+':'+element.attrib['id']` -/
def rstId (ns : String) (id : List Char) : NodeId := .str (qual ns (String.ofList id))

/-- `self.relations.get(relname, '')` -/
def relTypeOf (rels : Dict (List Char) (List Char)) (relname : List Char) : List Char := (Dict.find rels relname).getD []

/-- rs3graph.py:266-315 `__get_segment_types` -/
def rstSegmentTypes (rels : Dict (List Char) (List Char)) (x : Rs3Xml) : List Char × Option (List Char) :=
  match x.parent with
  | none =>
    match x.kind with
    | .segment _ => (['i', 's', 'o', 'l', 'a', 't', 'e', 'd'], none)
    | .group _ => (['s', 'p', 'a', 'n'], none)
  | some _ =>
    let reltype := relTypeOf rels (x.relname.getD [])
    if reltype = ['r', 's', 't'] then (['s', 'a', 't', 'e', 'l', 'l', 'i', 't', 'e'], some ['n', 'u', 'c', 'l', 'e', 'u', 's'])
    else if reltype = ['m', 'u', 'l', 't', 'i', 'n', 'u', 'c'] then (['n', 'u', 'c', 'l', 'e', 'u', 's'], none)
    else (['s', 'p', 'a', 'n'], some ['s', 'p', 'a', 'n'])

/-- rst/common.py:35-48 `get_segment_label`; `tokenized` is False while the file is read -/
def rstSegmentLabel (id segType text : List Char) : List Char :=
  ['['] ++ (match segType with | c :: _ => [c] | [] => ['_']) ++ [']', ':'] ++ id ++ [':', ' '] ++ text.take 20 ++ ['.', '.', '.']

/-- rs3graph.py:242-247: the attributes of the parent -/
def rstParentAttrs (ns : String) (relname : List Char) : Option (List Char) → Attrs
  | some p => [(qual ns "rel_name", strVal relname), (qual ns "segment_type", strVal p)]
  | none => [(qual ns "rel_name", strVal relname)]

/-- rs3graph.py:249-253: the parent node is added or updated -/
def rstParentNode (g : DG) (p : NodeId) (segType : List Char) (attrs : Attrs) : Except PyErr DG :=
  if Dict.has g.nodes p then
    if segType ≠ ['s', 'p', 'a', 'n'] then g.updateNode p attrs else .ok g
  else g.addNode p (.set [.str g.ns]) (.dict attrs) []

/-- rs3graph.py:232-263 `__add_parent_relation` -/
def rstAddParent (rels : Dict (List Char) (List Char)) (g : DG) (x : Rs3Xml) (parent : List Char) (n : NodeId) (types : List Char × Option (List Char)) : Except PyErr DG :=
  match x.relname with
  | none => .error .key
  | some relname => do
    let g1 ← g.rstParentNode (rstId g.ns parent) types.1 (rstParentAttrs g.ns relname types.2)
    g1.addEdge (rstId g1.ns parent) n (.set [.str g1.ns]) none
      (.dict [(qual g1.ns "rel_name", strVal relname), (qual g1.ns "rel_type", strVal (relTypeOf rels relname)), ("label", .atom (.str (qual g1.ns (String.ofList relname))))])
      [("edge_type", .atom (.str (if types.1 = ['s', 'p', 'a', 'n'] then spanningRelation else dominanceRelation)))]

/-- the call of `__add_parent_relation` if there is a parent, rs3graph.py:169-171 -/
def rstLink (rels : Dict (List Char) (List Char)) (g : DG) (x : Rs3Xml) (n : NodeId) (types : List Char × Option (List Char)) : Except PyErr DG :=
  match x.parent with
  | none => .ok g
  | some p => rstAddParent rels g x p n types

/-- rs3graph.py:144-171 `__add_segment`.  The second component of the state is `self.edus` (and `self.segments`, which contains the same IDs). -/
def rstAddSegment (rels : Dict (List Char) (List Char)) (st : DG × List NodeId) (x : Rs3Xml) (text : Option (List Char)) : Except PyErr (DG × List NodeId) := do
  let n := rstId st.1.ns x.id
  let types := rstSegmentTypes rels x
  let txt := sanitizeString text
  let g1 ← st.1.addNode n (.set [.str st.1.ns, .str (qual st.1.ns "segment")])
    (.dict [("label", strVal (rstSegmentLabel x.id types.1 txt)), (qual st.1.ns "text", strVal txt), (qual st.1.ns "segment_type", strVal types.1)]) []
  let g2 ← g1.rstLink rels x n types
  return (g2, st.2 ++ [n])

/-- rs3graph.py:192-195: the attributes of a group -/
def rstGroupAttrs (ns : String) (id type : List Char) : Attrs :=
  [(qual ns "group_type", strVal type), ("label", .atom (.str (qual ns (qual "group" (qual (String.ofList type) (String.ofList id))))))]

/-- rs3graph.py:197-210: the group node is added or updated -/
def rstGroupNode (g : DG) (n : NodeId) (attrs : Attrs) (segType : List Char) : Except PyErr DG :=
  match Dict.find g.nodes n with
  | none => g.addNode n (.set [.str g.ns, .str (qual g.ns "group")]) (.dict (attrs ++ [(qual g.ns "segment_type", strVal segType)])) []
  | some a =>
    let attrs1 := if segType ≠ ['s', 'p', 'a', 'n'] ∨ Dict.has a (qual g.ns "segment_type") = false then attrs ++ [(qual g.ns "segment_type", strVal segType)] else attrs
    g.updateNode n (attrs1 ++ [("layers", .set [.str g.ns, .str (qual g.ns "group")])])

/-- rs3graph.py:212-227: the group becomes the root -/
def rstSetRoot (g : DG) (n : NodeId) : Except PyErr DG := do
  let old := g.root
  let g1 := { g with root := n }
  let g2 ← g1.updateNode n [("layers", .set [.str g1.ns, .str (qual g1.ns "root")]), (qual g1.ns "segment_type", strVal ['s', 'p', 'a', 'n'])]
  let m ← g2.getAttr old "metadata"
  let g3 ← g2.setAttr n "metadata" m
  g3.removeNode old

/-- rs3graph.py:212-230: root or child of another node -/
def rstPlaceGroup (rels : Dict (List Char) (List Char)) (g : DG) (x : Rs3Xml) (n : NodeId) (types : List Char × Option (List Char)) : Except PyErr DG :=
  match x.parent with
  | none => g.rstSetRoot n
  | some p => rstAddParent rels g x p n types

/-- rs3graph.py:173-230 `__add_group` -/
def rstAddGroup (rels : Dict (List Char) (List Char)) (g : DG) (x : Rs3Xml) (type : Option (List Char)) : Except PyErr DG :=
  match type with
  | none => .error .key
  | some ty => do
    let n := rstId g.ns x.id
    let types := rstSegmentTypes rels x
    let g1 ← g.rstGroupNode n (rstGroupAttrs g.ns x.id ty) types.1
    g1.rstPlaceGroup rels x n types

/-- an element of the first loop, rs3graph.py:139-140 -/
def rstStep1 (rels : Dict (List Char) (List Char)) (st : DG × List NodeId) (x : Rs3Xml) : Except PyErr (DG × List NodeId) :=
  match x.kind with
  | .segment text => rstAddSegment rels st x text
  | .group _ => .ok st

/-- an element of the second loop, rs3graph.py:141-142 -/
def rstStep2 (rels : Dict (List Char) (List Char)) (g : DG) (x : Rs3Xml) : Except PyErr DG :=
  match x.kind with
  | .segment _ => .ok g
  | .group type => rstAddGroup rels g x type

/-- rs3graph.py:118-142 `__rst2graph` -/
def rst2graph (g : DG) (doc : Rs3Doc) : Except PyErr (DG × List NodeId) := do
  let rels := extractRelationtypes doc.rels
  let st ← doc.elems.foldlM (rstStep1 rels) (g, [])
  let g2 ← doc.elems.foldlM (rstStep2 rels) st.1
  return (g2, st.2)

/-- `'{0}:{1}_{2}'.format(self.ns, seg_node_id, i)` -/
def rstTokenId (ns : String) (seg : NodeId) (i : Nat) : NodeId := .str (qual ns (fmtId seg ++ "_" ++ String.ofList (decimal i)))
where
  /-- `'{}'.format(node_id)` -/
  fmtId : NodeId → String
    | .str s => s
    | .int i => String.ofList (decimalInt i)

/-- rs3graph.py:327-334: the body of the loop over the words of a segment -/
def rstAddToken (seg : NodeId) (g : DG) (w : List Char × Nat) : Except PyErr DG := do
  let t := rstTokenId g.ns seg w.2
  let g1 ← g.addNode t (.set [.str g.ns, .str (qual g.ns "token")]) (.dict [(qual g.ns "token", strVal w.1), ("label", strVal w.1)]) []
  let g2 := { g1 with tokens := g1.tokens ++ [t] }
  g2.addEdge seg t (.set [.str "rst", .str "rst:token"]) none .none [("edge_type", .atom (.str spanningRelation))]

/-- `self.node[seg_node_id][self.ns+':text'].split()` -/
def rstWords (g : DG) (seg : NodeId) : Except PyErr (List (List Char)) := do
  let v ← g.getAttr seg (qual g.ns "text")
  match v with
  | .atom (.str s) => return splitWs s.toList
  | _ => .error .attribute

/-- rs3graph.py:325-334: the body of the loop over the segments -/
def rstTokenizeSegment (g : DG) (seg : NodeId) : Except PyErr DG := do
  let ws ← g.rstWords seg
  ws.zipIdx.foldlM (rstAddToken seg) g

/-- rs3graph.py:107-111 -/
def rstTokenize (g : DG) (edus : List NodeId) (tokenize precedence : Bool) : Except PyErr DG :=
  if tokenize then do
    let g1 ← edus.foldlM rstTokenizeSegment g
    if precedence then batch g1.addPrecedenceRelations else return g1
  else return g

/-- rs3graph.py:61-116 `RSTGraph(rs3_filepath, name, namespace, tokenize, precedence)` for a file with the given content.
The result is the graph and the list of EDUs, which the code stores in the metadata of the root (lines 115-116; KeyError if the root has no metadata). -/
def rstRead (name ns : String) (tokenize precedence : Bool) (doc : Rs3Doc) : Except PyErr (DG × List NodeId) := do
  let st ← rst2graph { init "" ns none with name := name } doc
  let g ← st.1.rstTokenize st.2 tokenize precedence
  let _ ← g.getAttr g.root "metadata"
  return (g, st.2)

/-- the dictionary that describes the relations of a node in the result of `get_rst_relations`; keys that are missing in the dictionary are `[]`/`none` here -/
structure RstRel where
  tokens : List NodeId
  nucleus : Option (NodeId × List NodeId)
  satellites : List (NodeId × Val × List NodeId)
  multinuc : List (NodeId × Val × List NodeId)
  deriving DecidableEq, Repr

/-- rs3graph.py:392-394: the relation name of a node that is not 'span' -/
def rstRelName (ns : String) (a : Attrs) : Option Val :=
  match Dict.find a (qual ns "rel_name") with
  | none => none
  | some v => if v = .atom (.str "span") then none else some v

/-- rs3graph.py:369-396 `get_rst_relation_root_nodes` with data=True, for one node -/
def rstRootNode (fuel : Nat) (ns : String) (g : DG) (p : NodeId × Attrs) : Except PyErr (List (NodeId × Val × List NodeId)) :=
  match rstRelName ns p.2 with
  | none => .ok []
  | some v => do
    let span ← g.getSpan fuel p.1
    return [(p.1, v, span)]

/-- rs3graph.py:369-396 `get_rst_relation_root_nodes` with data=True, the complete output; `fuel` is Python's recursion limit for get_span -/
def rstRootNodes (fuel : Nat) (ns : String) (g : DG) : Except PyErr (List (NodeId × Val × List NodeId)) := do
  let xs ← mapE (rstRootNode fuel ns g) g.nodes
  return xs.flatten

/-- rs3graph.py:442-464: an edge from the relation node to its neighbor `m` -/
def rstRelEdge (fuel : Nat) (g : DG) (m : NodeId) (r : RstRel) (a : Attrs) : Except PyErr RstRel := do
  let et ← featAt a "edge_type"
  if et = .atom (.str spanningRelation) then do
    let span ← g.getSpan fuel m
    return { r with nucleus := some (m, span) }
  else do
    let rt ← featAt a "rst:rel_type"
    if rt = .atom (.str "rst") then do
      let rn ← featAt a "rst:rel_name"
      let span ← g.getSpan fuel m
      return { r with satellites := r.satellites ++ [(m, rn, span)] }
    else if rt = .atom (.str "multinuc") then do
      let rn ← featAt a "rst:rel_name"
      let span ← g.getSpan fuel m
      return { r with multinuc := r.multinuc ++ [(m, rn, span)] }
    else .error .notImplemented

/-- rs3graph.py:440-464: all edges to the neighbor `m` -/
def rstRelNeighbor (fuel : Nat) (g : DG) (n : NodeId) (r : RstRel) (m : NodeId) : Except PyErr RstRel :=
  (g.keyDict n m).foldlM (fun r kv => rstRelEdge fuel g m r kv.2) r

/-- `[node for node in docgraph.neighbors(dom_node) if istoken(docgraph, node)]` -/
def tokenNeighbors (g : DG) (n : NodeId) : Except PyErr (List NodeId) := do
  let ns ← g.neighbors n
  let xs ← mapE (fun m => do let b ← g.istoken m none; return (if b then [m] else [])) ns
  return xs.flatten

/-- `list(select_neighbors_by_layer(docgraph, dom_node, layer={'rst:segment', 'rst:group'}))` -/
def rstNeighbors (g : DG) (n : NodeId) : Except PyErr (List NodeId) :=
  match g.selectNeighborsByLayer n (.many ["rst:segment", "rst:group"]) with
  | (ms, none) => .ok ms
  | (_, some e) => .error e

/-- rs3graph.py:429-464: the relations of the node `n` -/
def rstRelOf (fuel : Nat) (g : DG) (n : NodeId) : Except PyErr RstRel := do
  let ms ← g.rstNeighbors n
  let toks ← g.tokenNeighbors n
  ms.foldlM (rstRelNeighbor fuel g n) ⟨naturalSorted toks, none, [], []⟩

/-- rs3graph.py:399-465 `get_rst_relations`, for one node: nothing if the dictionary is empty (then it is not created) -/
def rstRelations1 (fuel : Nat) (g : DG) (p : NodeId × Attrs) : Except PyErr (List (NodeId × RstRel)) := do
  let roots ← rstRootNode fuel "rst" g p
  match roots with
  | [] => return []
  | _ => do
    let r ← g.rstRelOf fuel p.1
    return (if r = ⟨[], none, [], []⟩ then [] else [(p.1, r)])

/-- rs3graph.py:399-465 `get_rst_relations`: a dictionary, here in node order -/
def getRstRelations (fuel : Nat) (g : DG) : Except PyErr (List (NodeId × RstRel)) := do
  let xs ← mapE (rstRelations1 fuel g) g.nodes
  return xs.flatten

/-- a row of the result of `get_rst_spans` -/
structure RstSpan where
  rel : String
  type : String
  relname : Val
  onset : Nat
  offset : Nat
  deriving DecidableEq, Repr

/-- `sys.maxint` -/
def maxint : Nat := 9223372036854775807

/-- rs3graph.py:507-519: the rows of a multinuclear relation (from the nucleus number `i` on), with the offsets of the whole relation so far -/
def multinucSpans (m : Dict NodeId Nat) (rel : String) : Nat → List (NodeId × Val × List NodeId) → Nat × Nat → Except PyErr (List RstSpan × (Nat × Nat))
  | _, [], se => .ok ([], se)
  | i, (_, rn, toks) :: ns, se => do
    let o ← getSegmentTokenOffsets toks m
    let rest ← multinucSpans m rel (i + 1) ns (if o.1 < se.1 then o.1 else se.1, if o.2 > se.2 then o.2 else se.2)
    return (⟨rel, "N" ++ String.ofList (decimal i), rn, o.1, o.2⟩ :: rest.1, rest.2)

/-- rs3graph.py:505-506: the name of a multinuclear relation -/
def multinucName (n : NodeId) (ns : List (NodeId × Val × List NodeId)) : String :=
  rstTokenId.fmtId n ++ "-" ++ String.intercalate "-" (ns.map (fun x => rstTokenId.fmtId x.1))

/-- rs3graph.py:521-537: the nucleus of the satellites -/
def satNucleus (m : Dict NodeId Nat) (n : NodeId) (r : RstRel) (se : Nat × Nat) : Except PyErr (NodeId × (Nat × Nat)) :=
  match r.nucleus with
  | some (k, toks) => do let o ← getSegmentTokenOffsets toks m; return (k, o)
  | none =>
    if r.multinuc ≠ [] then .ok (n, se)
    else if r.tokens ≠ [] then do let o ← getSegmentTokenOffsets r.tokens m; return (n, o)
    else .error .value

/-- rs3graph.py:540-548: the rows of a satellite -/
def satSpans (m : Dict NodeId Nat) (nuc : NodeId × (Nat × Nat)) (s : NodeId × Val × List NodeId) : Except PyErr (List RstSpan) := do
  let o ← getSegmentTokenOffsets s.2.2 m
  let rel := rstTokenId.fmtId nuc.1 ++ "-" ++ rstTokenId.fmtId s.1
  return [⟨rel, "N", s.2.1, nuc.2.1, nuc.2.2⟩, ⟨rel, "S", s.2.1, o.1, o.2⟩]

/-- rs3graph.py:520-548: the rows of all satellites of a node -/
def satellitesSpans (m : Dict NodeId Nat) (n : NodeId) (r : RstRel) (se : Nat × Nat) : Except PyErr (List RstSpan) :=
  if r.satellites = [] then .ok []
  else do
    let nuc ← satNucleus m n r se
    let xs ← mapE (satSpans m nuc) r.satellites
    return xs.flatten

/-- rs3graph.py:499-548: the rows of a node.  (For a node without multinuclear relation `multinuc_start` is not used.) -/
def rstSpans1 (m : Dict NodeId Nat) (p : NodeId × RstRel) : Except PyErr (List RstSpan) := do
  let mn ← multinucSpans m (multinucName p.1 p.2.multinuc) 1 p.2.multinuc (maxint, 0)
  let ss ← satellitesSpans m p.1 p.2 mn.2
  return mn.1 ++ ss

/-- rs3graph.py:468-549 `get_rst_spans` -/
def getRstSpans (fuel : Nat) (g : DG) : Except PyErr (List RstSpan) := do
  let rels ← g.getRstRelations fuel
  let xs ← mapE (rstSpans1 (tokenMapper g).1) rels
  return xs.flatten

end DG
end Dg
