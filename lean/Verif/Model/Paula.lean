/-
PAULA XML export (src/discoursegraphs/readwrite/paulaxml/paula.py).
An XML file is modelled by its content (`PaulaBody`): which elements it has, with which attributes.  Not modelled: serialisation, `human_readable=True` (comments; it is False by
default), writing files (`write_paula`), characters that lxml refuses.
`{...: v}` given to lxml's ElementMaker must be a string: `typemap[type(v)]` raises KeyError for other types (dicts: AttributeError).
-/
import Verif.Model.Offsets
import Verif.Model.Merge
import Verif.Model.Util
import Verif.Model.Chains

namespace Dg

/-- the content of a PAULA file -/
inductive PaulaBody
  /-- `<body>` -/
  | text (s : String)
  /-- `<markList type xml:base>` with `<mark id? xlink:href>` -/
  | marks (type base : String) (items : List (Option String × String))
  /-- `<multiFeatList xml:base>` with `<multiFeat xlink:href>` and `<feat name value>` -/
  | feats (base : String) (items : List (String × List (String × String)))
  /-- `<structList type>` with `<struct id>` and `<rel id type xlink:href>` -/
  | structs (type : String) (items : List (String × List (String × String × String)))
  /-- `<relList>` with `<rel id xlink:href target>` -/
  | rels (items : List (String × String × String))
  /-- `<structList type="annoSet">` with one `<struct>` and `<rel id xlink:href>` -/
  | annoset (items : List (String × String))
  deriving DecidableEq

/-- the files of a document with their document type definitions: `self.files` and `self.file2dtd` -/
abbrev PaulaFiles := Dict String (PaulaBody × String)

/-- `str(node_id)`, `'{0}'.format(node_id)` -/
def NodeId.text (n : NodeId) : String := String.ofList n.chars

/-- an attribute value given to lxml's ElementMaker -/
def lxmlValue : Val → Except PyErr String
  | .atom (.str s) => .ok s
  | .dict _ => .error .attribute
  | _ => .error .key

/-- a node ID given to lxml's ElementMaker -/
def lxmlId : NodeId → Except PyErr String
  | .str s => .ok s
  | .int _ => .error .key

/-- paula.py:35 -/
def ignoredEdgeAttribs : List String := ["layers", "label", "tiger:idref"]

/-- paula.py:36-37 -/
def ignoredNodeAttribs : List String := ["layers", "label", "metadata", "tokens", "tiger:id", "tiger:art_id", "tiger:orig_id"]

/-- paula.py:38 -/
def ignoredTokenAttribs : List String := ignoredNodeAttribs ++ ["tiger:token", "tiger:word"]

/-- the `<feat>` elements for those attributes of a dict that are to be exported (paula.py:278-284, 387-391, 429-433, 522-526) -/
def paulaFeats (wanted : String → Bool) (a : Attrs) : Except PyErr (List (String × String)) :=
  DG.mapE (fun kv => do let v ← lxmlValue kv.2; .ok (kv.1, v)) (a.filter (fun kv => wanted kv.1))

/-- paula.py:98 `docgraph.name.rsplit('.')[0]`: everything before the first dot -/
def paulaName (name : String) : String := String.ofList (name.toList.takeWhile (fun c => c != '.'))

/-- paula.py:598-614 `get_onsets` -/
def getOnsets : Nat → List (NodeId × String) → List (NodeId × Nat × Nat)
  | _, [] => []
  | onset, (t, s) :: rest => (t, onset, s.toList.length) :: getOnsets (onset + (s.toList.length + 1)) rest

/-- paula.py:224-229, 324-332, 415-418, 464-466, 509-511: `d[source_id][target_id] = edge_attrs` in a nested defaultdict -/
def groupEdge (d : Dict NodeId (Dict NodeId Attrs)) (e : NodeId × NodeId × Attrs) : Dict NodeId (Dict NodeId Attrs) :=
  Dict.put d e.1 (Dict.put ((Dict.find d e.1).getD []) e.2.1 e.2.2)

/-- the names of the files: paula.py:153, 183, 216, 267, 313, 373, 408, 455, 500, 549 -/
inductive PaulaKind
  | tokAnno | seg | hierarchy | struct | rel | pointing | pointingAnno
  deriving DecidableEq

/-- the ID of a file of a layer -/
def paulaLayerId (corpus name layer : String) : PaulaKind → String
  | .tokAnno => layer ++ ("." ++ (corpus ++ ("." ++ (name ++ ".tok_multiFeat"))))
  | .seg => layer ++ ("." ++ (corpus ++ ("." ++ (name ++ ("_" ++ (layer ++ "_seg"))))))
  | .hierarchy => layer ++ ("." ++ (corpus ++ ("." ++ (name ++ ("_" ++ layer)))))
  | .struct => layer ++ ("." ++ (corpus ++ ("." ++ (name ++ ("_" ++ (layer ++ "_struct"))))))
  | .rel => layer ++ ("." ++ (corpus ++ ("." ++ (name ++ ("_" ++ (layer ++ "_rel"))))))
  | .pointing => layer ++ ("." ++ (corpus ++ ("." ++ (name ++ ("_" ++ (layer ++ "_pointing"))))))
  | .pointingAnno => layer ++ ("." ++ (corpus ++ ("." ++ (name ++ ("_" ++ (layer ++ "_pointing_multiFeat"))))))

/-- the ID of a file of the whole document: `text`, `tok`, `anno` -/
def paulaDocId (corpus name kind : String) : String := corpus ++ ("." ++ (name ++ ("." ++ kind)))

/-- `'rel_{0}_{1}'` -/
def paulaRelId (u v : NodeId) : String := "rel_" ++ (u.text ++ ("_" ++ v.text))

namespace DG

/-- all items of a generator, or its exception -/
def genAll {α : Type} (x : Gen α) : Except PyErr (List α) :=
  match x.2 with
  | none => .ok x.1
  | some e => .error e

/-- `for s, t, attrs in select_edges_by(self.dg, layer=layer, edge_type=..., data=True)` -/
def paulaEdges (g : DG) (layer edgeType : String) : Except PyErr (List (NodeId × NodeId × Attrs)) := do
  let es ← genAll (g.selectEdgesBy (some layer) (some edgeType))
  .ok (es.map (fun e => (e.1, e.2.1, e.2.2.2)))

/-- `node_id_map[tok]`, paula.py:135 -/
def paulaMapped (m : Dict NodeId NodeId) (t : NodeId) : Except PyErr NodeId :=
  match Dict.find m t with
  | some t' => .ok t'
  | none => .error .key

/-- paula.py:122-135 `__make_xpointer_compatible`; `order` is the order in which labels are replaced (see `RelabelOrder`) -/
def paulaGraph (g : DG) (order : Option (List NodeId)) : Except PyErr DG :=
  let m := (Dict.keys g.nodes).map (fun n => (n, ensureXpointer n))
  match g.relabelInplace m order with
  | (_, some e) => .error e
  | (h, none) => do
    let ts ← mapE (paulaMapped m) g.tokens
    .ok { h with tokens := ts }

/-- paula.py:137-158 `__gen_primary_text_file` -/
def paulaText (g : DG) : Except PyErr PaulaBody := do
  let s ← g.getText 0 none
  .ok (.text s)

/-- paula.py:160-200 `__gen_tokenization_file` -/
def paulaTok (g : DG) (corpus name : String) : Except PyErr PaulaBody := do
  let toks ← genAll g.getTokens
  let toks ← mapE (fun x => do let s ← asString x.2; .ok (x.1, s)) toks
  let items ← mapE (fun (x : NodeId × Nat × Nat) => do
    let i ← lxmlId x.1
    .ok (some i, "#xpointer(string-range(//body,''," ++ (String.ofList (decimal x.2.1) ++ ("," ++ (String.ofList (decimal x.2.2) ++ "))"))))) (getOnsets 1 toks)
  .ok (.marks "tok" (paulaDocId corpus name "text" ++ ".xml") items)

/-- paula.py:233-239: the reference to the tokens of a span -/
def paulaSpanHref (snp : Bool) (targets : List NodeId) : Except PyErr String :=
  if snp then .ok (pyJoin " " (targets.map (fun t => "#" ++ t.text)))
  else match targets, targets.getLast? with
    | t :: _, some l => .ok ("#xpointer(id(" ++ (t.text ++ (")/range-to(id(" ++ (l.text ++ ")))"))))
    | _, _ => .error .index

/-- paula.py:202-256 `__gen_span_markables_file` -/
def paulaSeg (g : DG) (snp : Bool) (corpus name layer : String) : Except PyErr PaulaBody := do
  let es ← g.paulaEdges layer spanningRelation
  let items ← mapE (fun (x : NodeId × Dict NodeId Attrs) => do
    let href ← paulaSpanHref snp (naturalSorted (Dict.keys x.2))
    .ok (none, href)) (es.foldl groupEdge [])
  .ok (.marks layer (paulaDocId corpus name "tok" ++ ".xml") items)

/-- `self.dg.node[node_id]`, paula.py:277, 386 -/
def paulaNode (g : DG) (n : NodeId) : Except PyErr Attrs :=
  match Dict.find g.nodes n with
  | some a => .ok a
  | none => .error .key

/-- paula.py:258-293 `__gen_token_anno_file` -/
def paulaTokAnno (g : DG) (corpus name layer : String) : Except PyErr PaulaBody := do
  let items ← mapE (fun t => do
    let a ← g.paulaNode t
    let fs ← paulaFeats (fun k => decide (k ∉ ignoredTokenAttribs ∧ layer.toList <+: k.toList)) a
    .ok ("#" ++ t.text, fs)) g.tokens
  .ok (.feats (paulaDocId corpus name "tok" ++ ".xml") items)

/-- paula.py:329-332: span edges to tokens are part of the hierarchy -/
def paulaTokenEdges (g : DG) : List (NodeId × NodeId × Attrs) → Except PyErr (List (NodeId × NodeId × Attrs))
  | [] => .ok []
  | e :: es => do
    let b ← g.istoken e.2.1 none
    let rest ← paulaTokenEdges g es
    .ok (if b then e :: rest else rest)

/-- paula.py:343-355: the `<rel>` element for a dominated node -/
def paulaRel (g : DG) (corpus name : String) (source : NodeId) (x : NodeId × Attrs) : Except PyErr (String × String × String) := do
  let b ← g.istoken x.1 none
  let href := if b then paulaDocId corpus name "tok" ++ (".xml#" ++ x.1.text) else "#" ++ x.1.text
  let typ ← (match Dict.find x.2 "edge_type" with | some v => lxmlValue v | none => .error .key)
  .ok (paulaRelId source x.1, typ, href)

/-- paula.py:295-363 `__gen_hierarchy_file` -/
def paulaHierarchy (g : DG) (corpus name layer : String) : Except PyErr PaulaBody := do
  let dom ← g.paulaEdges layer dominanceRelation
  let span ← g.paulaEdges layer spanningRelation
  let spanToks ← paulaTokenEdges g span
  let d := (dom.filter (fun e => e.1 ≠ .str (layer ++ ":root_node")) ++ spanToks).foldl groupEdge []
  let items ← mapE (fun (x : NodeId × Dict NodeId Attrs) => do
    let rels ← mapE (g.paulaRel corpus name x.1) x.2
    .ok (x.1.text, rels)) d
  .ok (.structs layer items)

/-- paula.py:382-394: the `<multiFeat>` elements of the nodes that are no tokens -/
def paulaNodeFeats (g : DG) : List NodeId → Except PyErr (List (String × List (String × String)))
  | [] => .ok []
  | n :: ns => do
    let b ← g.istoken n none
    if b then paulaNodeFeats g ns
    else do
      let a ← g.paulaNode n
      let fs ← paulaFeats (fun k => decide (k ∉ ignoredNodeAttribs)) a
      let rest ← paulaNodeFeats g ns
      .ok (("#" ++ n.text, fs) :: rest)

/-- paula.py:365-398 `__gen_struct_anno_files` -/
def paulaStruct (g : DG) (corpus name layer : String) : Except PyErr PaulaBody := do
  let ns ← genAll (g.selectNodesByLayer (.one layer))
  let items ← g.paulaNodeFeats ns
  .ok (.feats (paulaLayerId corpus name layer .hierarchy ++ ".xml") items)

/-- paula.py:423-440, 516-533: the `<multiFeat>` elements of grouped edges -/
def paulaEdgeFeats (d : Dict NodeId (Dict NodeId Attrs)) : Except PyErr (List (String × List (String × String))) := do
  let xs ← mapE (fun (x : NodeId × Dict NodeId Attrs) => mapE (fun (y : NodeId × Attrs) => do
    let fs ← paulaFeats (fun k => decide (k ∉ ignoredEdgeAttribs)) y.2
    .ok ("#" ++ paulaRelId x.1 y.1, fs)) x.2) d
  .ok xs.flatten

/-- paula.py:400-445 `__gen_rel_anno_file` -/
def paulaRelAnno (g : DG) (corpus name layer : String) : Except PyErr PaulaBody := do
  let dom ← g.paulaEdges layer dominanceRelation
  let items ← paulaEdgeFeats ((dom.filter (fun e => e.1 ≠ .str (layer ++ ":root_node"))).foldl groupEdge [])
  .ok (.feats (paulaLayerId corpus name layer .hierarchy ++ ".xml") items)

/-- paula.py:566-577 `__gen_node_href` -/
def paulaHref (g : DG) (corpus name layer : String) (n : NodeId) : Except PyErr String := do
  let b ← g.istoken n none
  .ok ((if b then paulaDocId corpus name "tok" else paulaLayerId corpus name layer .hierarchy) ++ (".xml#" ++ n.text))

/-- paula.py:447-490 `__gen_pointing_file` -/
def paulaPointing (g : DG) (corpus name layer : String) : Except PyErr PaulaBody := do
  let es ← g.paulaEdges layer pointingRelation
  let items ← mapE (fun (x : NodeId × Dict NodeId Attrs) => mapE (fun (y : NodeId × Attrs) => do
    let s ← g.paulaHref corpus name layer x.1
    let t ← g.paulaHref corpus name layer y.1
    .ok (paulaRelId x.1 y.1, s, t)) x.2) (es.foldl groupEdge [])
  .ok (.rels items.flatten)

/-- paula.py:492-538 `__gen_pointing_anno_file` -/
def paulaPointingAnno (g : DG) (corpus name layer : String) : Except PyErr PaulaBody := do
  let es ← g.paulaEdges layer pointingRelation
  let items ← paulaEdgeFeats (es.foldl groupEdge [])
  .ok (.feats (paulaLayerId corpus name layer .pointing ++ ".xml") items)

/-- paula.py:112-119: the files of one layer -/
def paulaLayer (g : DG) (snp : Bool) (corpus name : String) (files : PaulaFiles) (layer : String) : Except PyErr PaulaFiles := do
  let f1 ← g.paulaTokAnno corpus name layer
  let f2 ← g.paulaSeg snp corpus name layer
  let f3 ← g.paulaHierarchy corpus name layer
  let f4 ← g.paulaStruct corpus name layer
  let f5 ← g.paulaRelAnno corpus name layer
  let f6 ← g.paulaPointing corpus name layer
  let f7 ← g.paulaPointingAnno corpus name layer
  .ok (Dict.upd files [(paulaLayerId corpus name layer .tokAnno, (f1, "paula_multiFeat.dtd")), (paulaLayerId corpus name layer .seg, (f2, "paula_mark.dtd")),
    (paulaLayerId corpus name layer .hierarchy, (f3, "paula_struct.dtd")), (paulaLayerId corpus name layer .struct, (f4, "paula_multiFeat.dtd")),
    (paulaLayerId corpus name layer .rel, (f5, "paula_multiFeat.dtd")), (paulaLayerId corpus name layer .pointing, (f6, "paula_rel.dtd")),
    (paulaLayerId corpus name layer .pointingAnno, (f7, "paula_multiFeat.dtd"))])

/-- a layer in a file name -/
def paulaLayerName : Atom → Except PyErr String
  | .str s => .ok s
  | _ => .error .attribute

/-- paula.py:540-564 `__gen_annoset_file` -/
def paulaAnnoset (files : PaulaFiles) : PaulaBody :=
  .annoset ((Dict.keys files).zipIdx.map (fun x => ("rel_" ++ String.ofList (decimal x.2), x.1 ++ ".xml")))

/-- paula.py:79-120 `PaulaDocument(docgraph, corpus_name, saltnpepper_compatible=snp)` -/
def paulaDocument (g : DG) (corpus : String) (snp : Bool) (order : Option (List NodeId)) : Except PyErr PaulaFiles := do
  let name := paulaName g.name
  let h ← g.paulaGraph order
  let t ← h.paulaText
  let k ← h.paulaTok corpus name
  let layers ← g.getTopLevelLayers
  let layers ← mapE paulaLayerName layers
  let files ← layers.foldlM (h.paulaLayer snp corpus name)
    [(paulaDocId corpus name "text", (t, "paula_text.dtd")), (paulaDocId corpus name "tok", (k, "paula_mark.dtd"))]
  .ok (Dict.put files (paulaDocId corpus name "anno") (paulaAnnoset files, "paula_struct.dtd"))

end DG
end Dg
