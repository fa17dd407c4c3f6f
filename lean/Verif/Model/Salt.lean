/-
SaltXMI documents (src/discoursegraphs/readwrite/salt/*.py).
An XML document is modelled by its elements (tag, attributes, children); not modelled: parsing and serialisation, comments among the children, the attribute `xml` of the objects (the element they
were made from), `__str__` methods and the functions that print statistics.  XML attribute values cannot contain the control characters for which `str.split()` and `unicode.split()` differ.
-/
import Verif.Model.Anaphoricity
import Verif.Model.Spanstring
import Verif.Model.Dis
import Verif.Model.Chains

namespace Dg

/-- an XML element -/
inductive SXml
  | mk (tag : String) (attrs : Dict String String) (children : List SXml)

namespace SXml

/-- `element.tag` -/
def tag : SXml → String
  | mk t _ _ => t

/-- `element.attrib` -/
def attrs : SXml → Dict String String
  | mk _ a _ => a

/-- `element.getchildren()` -/
def children : SXml → List SXml
  | mk _ _ c => c

/-- `element.attrib[k]` -/
def attrib (e : SXml) (k : String) : Except PyErr String :=
  match Dict.find e.attrs k with
  | some v => .ok v
  | none => .error .key

mutual
/-- all elements inside of an element, in document order -/
def inside : SXml → List SXml
  | mk _ _ cs => insideAll cs
/-- the given elements and all elements inside of them, in document order -/
def insideAll : List SXml → List SXml
  | [] => []
  | c :: cs => c :: (inside c ++ insideAll cs)
end

end SXml

/-- salt/elements.py:124-136 `get_elements(tree, tag_name)`: `tree.findall("//tag")` -/
def saltElements (root : SXml) (tag : String) : List SXml := root.inside.filter (fun e => e.tag = tag)

/-- salt/elements.py:139-144 `get_subelements` -/
def saltSub (e : SXml) (tag : String) : List SXml := e.children.filter (fun c => c.tag = tag)

/-- `element.find('labels[@name="..."]')` -/
def saltFindLabel (e : SXml) (name : String) : Option SXml := e.children.find? (fun c => c.tag = "labels" ∧ Dict.find c.attrs "name" = some name)

/-- the name of the attribute `xsi:type` -/
def xsiType : String := "{http://www.w3.org/2001/XMLSchema-instance}type"

/-- salt/util.py:16-28 `get_xsi_type`; the error message is formatted after the exception is created, which raises AttributeError -/
def getXsiType (e : SXml) : Except PyErr String :=
  match Dict.find e.attrs xsiType with
  | some v => .ok v
  | none => .error .attribute

/-- `label.xpath('@valueString')[0]` of the result of a `find` -/
def saltLabelValue : Option SXml → Except PyErr String
  | none => .error .attribute
  | some l => match Dict.find l.attrs "valueString" with
    | some v => .ok v
    | none => .error .index

/-- a digit of a hexadecimal number in upper case -/
def hexDigit (n : Nat) : Char := if n < 10 then Char.ofNat (48 + n) else Char.ofNat (55 + n)

/-- `"{:x}".format(n).upper()` -/
def hexNat (n : Nat) : List Char := if n < 16 then [hexDigit n] else hexNat (n / 16) ++ [hexDigit (n % 16)]

/-- `"{:02x}".format(ord(c)).upper()` -/
def hexChar (c : Char) : List Char := if c.toNat < 16 then '0' :: hexNat c.toNat else hexNat c.toNat

/-- salt/util.py:31-40 `string2xmihex` -/
def string2xmihex (s : String) : String := String.ofList (s.toList.flatMap hexChar)

/-- salt/labels.py:19-51 `SaltLabel` -/
structure SaltLabel where
  name : String
  value : String
  xsiType : String
  ns : Option String
  hex : String
  deriving DecidableEq

/-- `x if x else None`, labels.py:47 -/
def nonEmpty : Option String → Option String
  | some "" => none
  | x => x

/-- salt/labels.py:26-51 `SaltLabel(name, value, xsi_type, namespace, hexvalue)` -/
def SaltLabel.new (name value xsi : String) (ns hex : Option String) : SaltLabel :=
  ⟨name, value, xsi, nonEmpty ns, match nonEmpty hex with | some h => h | none => string2xmihex value⟩

/-- salt/labels.py:53-74 `SaltLabel.from_etree` -/
def SaltLabel.fromEtree (e : SXml) : Except PyErr SaltLabel := do
  let n ← e.attrib "name"
  let v ← e.attrib "valueString"
  let t ← getXsiType e
  let h ← e.attrib "value"
  .ok (SaltLabel.new n v t (Dict.find e.attrs "namespace") (some h))

/-- salt/labels.py:76-88 `SaltLabel.to_etree`; the order of the attributes is irrelevant -/
def SaltLabel.toEtree (l : SaltLabel) : SXml :=
  .mk "labels" ([(Dg.xsiType, l.xsiType)] ++ (match l.ns with | some n => [("namespace", n)] | none => []) ++ [("name", l.name), ("value", l.hex), ("valueString", l.value)]) []

/-- the classes of Salt objects -/
inductive SaltClass
  | element | node | primaryText | token | span | structure | edge | spanning | textual | dominance | layer
  deriving DecidableEq

/-- the direct superclass: nodes.py, edges.py, layers.py -/
def SaltClass.super : SaltClass → Option SaltClass
  | .element => none
  | .node | .edge | .layer => some .element
  | .primaryText | .token | .span | .structure => some .node
  | .spanning | .textual | .dominance => some .edge

/-- `issubclass(c, d)` -/
def SaltClass.isSub (c d : SaltClass) : Bool :=
  c = d || (match c.super with | some s => s = d || s.super = some d | none => false)

/-- a Salt object: its class and its attributes (`none`: the object has no such attribute) -/
structure SaltObj where
  cls : SaltClass
  name : String
  elementId : Option String
  xsi : String
  labels : List SaltLabel
  layers : Option (List Int) := none
  features : Option (Dict String String) := none
  source : Option Int := none
  target : Option Int := none
  onset : Option Int := none
  offset : Option Int := none
  text : Option String := none
  nodes : Option (List Nat) := none
  edges : Option (List Nat) := none
  tokens : Option (List Int) := none
  spans : Option (List Int) := none
  dominates : Option (List Int) := none
  dominatedBy : Option (List Int) := none
  deriving DecidableEq

/-- `object.attribute` -/
def saltAttr {α : Type} : Option α → Except PyErr α
  | some v => .ok v
  | none => .error .attribute

/-- salt/elements.py:147-150 `get_element_name` -/
def saltElementName (e : SXml) : Except PyErr String := saltLabelValue (saltFindLabel e "SNAME")

/-- salt/elements.py:153-163 `get_graph_element_id` -/
def saltElementId (e : SXml) : Except PyErr (Option String) :=
  match saltFindLabel e "id" with
  | some l => do let v ← l.attrib "valueString"; .ok (some v)
  | none => .ok none

/-- `_prefix, i = s.split('.')`, `int(i)`: elements.py:184-185, edges.py:202-203 -/
def saltRef (s : List Char) : Except PyErr Int :=
  match splitChars '.' s with
  | [_, b] => intOrError b
  | _ => .error .value

/-- salt/elements.py:166-186 `get_layer_ids` -/
def saltLayerIds (e : SXml) : Except PyErr (List Int) :=
  match Dict.find e.attrs "layers" with
  | none => .ok []
  | some s => DG.mapE saltRef (splitWs s.toList)

/-- the type of labels that are annotations -/
def sAnnotation : String := "saltCore:SAnnotation"

/-- salt/labels.py:102-108 `get_annotation` -/
def saltAnnotation (l : SXml) : Except PyErr (String × String) := do
  let n ← l.attrib "name"
  let v ← l.attrib "valueString"
  .ok (n, v)

/-- salt/elements.py:111-121 `get_annotations` -/
def saltAnnotations : Dict String String → List SXml → Except PyErr (Dict String String)
  | d, [] => .ok d
  | d, l :: ls => do
    let t ← getXsiType l
    if t = sAnnotation then do
      let kv ← saltAnnotation l
      saltAnnotations (Dict.put d kv.1 kv.2) ls
    else saltAnnotations d ls

/-- salt/elements.py:73-85 `SaltElement.from_etree` (called for the class SaltElement) -/
def saltElement (e : SXml) : Except PyErr SaltObj := do
  let labels ← DG.mapE SaltLabel.fromEtree (saltSub e "labels")
  let name ← saltElementName e
  let id ← saltElementId e
  let xsi ← getXsiType e
  .ok { cls := .element, name := name, elementId := id, xsi := xsi, labels := labels }

/-- salt/nodes.py:38-49 `SaltNode.from_etree`; this is also the `from_etree` of TokenNode, SpanNode and StructureNode, and the resulting object always has the class SaltNode -/
def saltNode (e : SXml) : Except PyErr SaltObj := do
  let o ← saltElement e
  let layers ← saltLayerIds e
  let feats ← saltAnnotations [] e.children
  .ok { o with cls := .node, layers := some layers, features := some feats }

/-- salt/nodes.py:106-117, 205-213 `PrimaryTextNode.from_etree` -/
def saltPrimaryText (e : SXml) : Except PyErr SaltObj := do
  let o ← saltNode e
  let text ← saltLabelValue (saltFindLabel e "SDATA")
  .ok { o with cls := .primaryText, text := some text }

/-- salt/edges.py:196-203 `get_node_id` -/
def saltNodeId (e : SXml) (k : String) : Except PyErr Int := do
  let s ← e.attrib k
  saltRef s.toList

/-- salt/edges.py:42-54 `SaltEdge.from_etree`; this is also the `from_etree` of SpanningRelation, and the resulting object always has the class SaltEdge -/
def saltEdge (e : SXml) : Except PyErr SaltObj := do
  let o ← saltElement e
  let layers ← saltLayerIds e
  let s ← saltNodeId e "source"
  let t ← saltNodeId e "target"
  .ok { o with cls := .edge, layers := some layers, source := some s, target := some t }

/-- salt/edges.py:206-217 `get_string_onset`, `get_string_offset` -/
def saltInt (e : SXml) (name : String) : Except PyErr Int := do
  let s ← saltLabelValue (saltFindLabel e name)
  intOrError s.toList

/-- salt/edges.py:135-147 `TextualRelation.from_etree` -/
def saltTextual (e : SXml) : Except PyErr SaltObj := do
  let o ← saltEdge e
  let a ← saltInt e "SSTART"
  let b ← saltInt e "SEND"
  .ok { o with cls := .textual, onset := some a, offset := some b }

/-- salt/edges.py:181-193 `DominanceRelation.from_etree` -/
def saltDominance (e : SXml) : Except PyErr SaltObj := do
  let o ← saltEdge e
  let feats ← saltAnnotations [] e.children
  .ok { o with cls := .dominance, features := some feats }

/-- layers.py:74-81: the numbers in an attribute, `int(x) for x in DIGITS.findall(val_str)` -/
def saltNumbers (e : SXml) (k : String) : List Nat :=
  match Dict.find e.attrs k with
  | none => []
  | some s => (splitBy (fun c => !isDigitChar c) s.toList).map parseDec

/-- salt/layers.py:62-82 `SaltLayer.from_etree` -/
def saltLayer (e : SXml) : Except PyErr SaltObj := do
  let o ← saltElement e
  .ok { o with cls := .layer, nodes := some (saltNumbers e "nodes"), edges := some (saltNumbers e "edges") }

/-- salt/saltxmi.py:44-52 `XSI_TYPE_CLASSES` with the inherited `from_etree` of each class, 343-367 `create_class_instance` -/
def saltInstance (e : SXml) : Except PyErr SaltObj := do
  let t ← getXsiType e
  if t = "sDocumentStructure:SStructure" then saltNode e
  else if t = "sDocumentStructure:SSpan" then saltNode e
  else if t = "sDocumentStructure:SToken" then saltNode e
  else if t = "sDocumentStructure:STextualDS" then saltPrimaryText e
  else if t = "sDocumentStructure:SSpanningRelation" then saltEdge e
  else if t = "sDocumentStructure:STextualRelation" then saltTextual e
  else if t = "sDocumentStructure:SDominanceRelation" then saltDominance e
  else if t = "saltCore:SLayer" then saltLayer e
  else .error .key

/-- `' '.join('//@layers.{}'.format(i) for i in ids)` -/
def saltRefs (kind : String) (ids : List Int) : String :=
  String.ofList (joinChars [' '] (ids.map (fun i => "//@".toList ++ (kind.toList ++ '.' :: decimalInt i))))

/-- salt/nodes.py:51-67 `SaltNode.to_etree` -/
def SaltObj.nodeEtree (o : SaltObj) : Except PyErr SXml := do
  let ls ← saltAttr o.layers
  .ok (.mk "nodes" [(xsiType, o.xsi), ("layers", saltRefs "layers" ls)] (o.labels.map SaltLabel.toEtree))

/-- salt/edges.py:56-77 `SaltEdge.to_etree` (no value is None) -/
def SaltObj.edgeEtree (o : SaltObj) : Except PyErr SXml := do
  let ls ← saltAttr o.layers
  let s ← saltAttr o.source
  let t ← saltAttr o.target
  .ok (.mk "edges" [(xsiType, o.xsi), ("source", saltRefs "nodes" [s]), ("target", saltRefs "nodes" [t]), ("layers", saltRefs "layers" ls)] (o.labels.map SaltLabel.toEtree))

/-- salt/layers.py:84-105 `SaltLayer.to_etree` (no value is None) -/
def SaltObj.layerEtree (o : SaltObj) : Except PyErr SXml := do
  let ns ← saltAttr o.nodes
  let es ← saltAttr o.edges
  .ok (.mk "layers" [(xsiType, o.xsi), ("nodes", saltRefs "nodes" (ns.map Int.ofNat)), ("edges", saltRefs "edges" (es.map Int.ofNat))] (o.labels.map SaltLabel.toEtree))

/-- `object.to_etree()`: the method of the class or its superclass; SaltElement has none -/
def SaltObj.toEtree (o : SaltObj) : Except PyErr SXml :=
  if o.cls.isSub .node then o.nodeEtree
  else if o.cls.isSub .edge then o.edgeEtree
  else if o.cls.isSub .layer then o.layerEtree
  else .error .attribute

/-- salt/saltxmi.py:370-378 `get_doc_id` -/
def saltDocId (root : SXml) : Except PyErr String :=
  match root.children.filter (fun c => c.tag = "labels" ∧ Dict.find c.attrs "name" = some "id") with
  | [] => .error .index
  | l :: _ => l.attrib "valueString"

/-- a SaltDocument (saltxmi.py:88-104) -/
structure SaltDoc where
  docId : String
  nodes : List SaltObj
  edges : List SaltObj
  layers : List SaltObj
  deriving DecidableEq

/-- salt/saltxmi.py:104-117, 141-164 `SaltDocument(path)` -/
def saltDocument (root : SXml) : Except PyErr SaltDoc := do
  let id ← saltDocId root
  let ns ← DG.mapE saltInstance (saltElements root "nodes")
  let es ← DG.mapE saltInstance (saltElements root "edges")
  let ls ← DG.mapE saltInstance (saltElements root "layers")
  .ok ⟨id, ns, es, ls⟩

/-- the value of an attribute of a Salt object in a graph -/
inductive SaltVal
  | str (s : String) | none | int (i : Int) | ints (l : List Int) | feats (d : Dict String String) | labels (l : List SaltLabel)
  deriving DecidableEq

/-- a dict of attributes -/
abbrev SaltDict := Dict String SaltVal

/-- an entry of `__dict__` for an attribute that may be missing -/
def saltEntry {α : Type} (k : String) (f : α → SaltVal) : Option α → SaltDict
  | some v => [(k, f v)]
  | none => []

/-- `object.__dict__` of an object made from an element (without `xml`) -/
def SaltObj.dict (o : SaltObj) : SaltDict :=
  [("name", .str o.name), ("element_id", match o.elementId with | some i => .str i | none => .none), ("xsi_type", .str o.xsi), ("labels", .labels o.labels)] ++
  saltEntry "layers" .ints o.layers ++ saltEntry "features" .feats o.features ++ saltEntry "source" .int o.source ++ saltEntry "target" .int o.target ++
  saltEntry "onset" .int o.onset ++ saltEntry "offset" .int o.offset ++ saltEntry "text" .str o.text ++
  saltEntry "nodes" .ints (o.nodes.map (·.map Int.ofNat)) ++ saltEntry "edges" .ints (o.edges.map (·.map Int.ofNat))

/-- a networkx DiGraph -/
structure SaltGraph where
  nodes : Dict Int SaltDict := []
  edges : Dict (Int × Int) SaltDict := []
  deriving DecidableEq

namespace SaltGraph

/-- networkx `DiGraph.add_node(n, attr_dict)`: the dict is used itself, or merged with that of the existing node -/
def addNode (g : SaltGraph) (n : Int) (a : SaltDict) : SaltGraph :=
  { g with nodes := Dict.put g.nodes n (match Dict.find g.nodes n with | some b => Dict.upd b a | none => a) }

/-- networkx `DiGraph.add_edge`: the ends are added if they are missing -/
def ensure (g : SaltGraph) (n : Int) : SaltGraph := if Dict.has g.nodes n then g else { g with nodes := Dict.put g.nodes n [] }

/-- networkx `DiGraph.add_edge(u, v, attr_dict)`: there is one edge at most from `u` to `v` -/
def addEdge (g : SaltGraph) (u v : Int) (a : SaltDict) : SaltGraph :=
  let h := (g.ensure u).ensure v
  { h with edges := Dict.put h.edges (u, v) (Dict.upd ((Dict.find h.edges (u, v)).getD []) a) }

/-- salt/saltxmi.py:79-81 -/
def addNodes : SaltGraph → Nat → List SXml → Except PyErr SaltGraph
  | g, _, [] => .ok g
  | g, i, e :: es => do
    let o ← saltInstance e
    addNodes (g.addNode i o.dict) (i + 1) es

/-- salt/saltxmi.py:82-84 -/
def addEdges : SaltGraph → List SXml → Except PyErr SaltGraph
  | g, [] => .ok g
  | g, e :: es => do
    let o ← saltInstance e
    let s ← saltAttr o.source
    let t ← saltAttr o.target
    addEdges (g.addEdge s t o.dict) es

end SaltGraph

/-- salt/saltxmi.py:66-84 `SaltXMIGraph(path)`: the document ID and the graph -/
def saltXmiGraph (root : SXml) : Except PyErr (String × SaltGraph) := do
  let id ← saltDocId root
  let g ← SaltGraph.addNodes {} 0 (saltElements root "nodes")
  let g ← SaltGraph.addEdges g (saltElements root "edges")
  .ok (id, g)

/-- salt/saltxmi.py:381-387 `subtype_ids` -/
def subtypeIds (l : List SaltObj) (c : SaltClass) : List Nat := (l.zipIdx.filter (fun x => x.1.cls.isSub c)).map Prod.snd

/-- the position meant by `list[i]` for a list of `n` elements -/
def saltIndex (n : Nat) (i : Int) : Except PyErr Nat :=
  if 0 ≤ i then (if i < n then .ok i.toNat else .error .index)
  else (if 0 ≤ i + n then .ok (i + n).toNat else .error .index)

/-- `nodes[i].attribute = value` -/
def saltSet (nodes : List SaltObj) (i : Int) (f : SaltObj → SaltObj) : Except PyErr (List SaltObj) := do
  let k ← saltIndex nodes.length i
  .ok (nodes.modify k f)

/-- salt/saltxmi.py:272-281 `_add_offsets_to_token_nodes` -/
def saltOffsets : List SaltObj → List SaltObj → Except PyErr (List SaltObj)
  | nodes, [] => .ok nodes
  | nodes, e :: es => do
    let s ← saltAttr e.source
    let a ← saltAttr e.onset
    let nodes ← saltSet nodes s (fun o => { o with onset := some a })
    let b ← saltAttr e.offset
    let nodes ← saltSet nodes s (fun o => { o with offset := some b })
    saltOffsets nodes es

/-- salt/nodes.py:187-202 `extract_sentences`: `toks` is the current sentence -/
def extractSentences (ids : List Nat) : List Nat → List (SaltObj × Nat) → Except PyErr (List (List Nat))
  | _, [] => .ok []
  | toks, (o, i) :: rest =>
    if i ∈ ids then do
      let fs ← saltAttr o.features
      match Dict.find fs "tiger.pos" with
      | none => .error .key
      | some p =>
        if p ≠ "$." then extractSentences ids (toks ++ [i]) rest
        else do
          let ss ← extractSentences ids [] rest
          .ok ((toks ++ [i]) :: ss)
    else extractSentences ids toks rest

/-- `d[k].append(v)` of a defaultdict(list) -/
def saltAppend (d : Dict Int (List Int)) (k v : Int) : Dict Int (List Int) := Dict.put d k ((Dict.find d k).getD [] ++ [v])

/-- saltxmi.py:290-294, 306-310, 327-333: group the pairs -/
def saltGroup (ps : List (Int × Int)) : Dict Int (List Int) := ps.foldl (fun d p => saltAppend d p.1 p.2) []

/-- the ends of edges -/
def saltEnds : List SaltObj → Except PyErr (List (Int × Int)) :=
  DG.mapE (fun e => do
    let t ← saltAttr e.target
    let s ← saltAttr e.source
    .ok (s, t))

/-- `for i in d: self.nodes[i].attribute = d[i]`; `order` is the order of the keys of the dict -/
def saltStore (set : List Int → SaltObj → SaltObj) (d : Dict Int (List Int)) : List SaltObj → List Int → Except PyErr (List SaltObj)
  | nodes, [] => .ok nodes
  | nodes, i :: is => do
    let nodes ← saltSet nodes i (set ((Dict.find d i).getD []))
    saltStore set d nodes is

/-- a LinguisticDocument (saltxmi.py:170-210) -/
structure SaltLing where
  docId : String
  text : String
  nodes : List SaltObj
  edges : List SaltObj
  layers : List SaltObj
  sentences : List (List Nat)
  deriving DecidableEq

/-- the elements at given positions -/
def saltAt (l : List SaltObj) (ids : List Nat) : List SaltObj := ids.filterMap (fun i => l[i]?)

/-- the orders in which the four dicts of a LinguisticDocument are iterated -/
structure SaltOrders where
  spans : List Int
  tokens : List Int
  dominating : List Int
  dominated : List Int

/-- salt/saltxmi.py:176-229, 283-340 `LinguisticDocument(salt_document)`; `orders` are the orders of the keys of the dicts that are iterated over -/
def saltLinguistic (d : SaltDoc) (orders : SaltOrders) : Except PyErr SaltLing := do
  let first ← (match d.nodes with | [] => .error .index | o :: _ => .ok o)
  let text ← saltAttr first.text
  let nodes ← saltOffsets d.nodes (saltAt d.edges (subtypeIds d.edges .textual))
  let sents ← extractSentences (subtypeIds nodes .token) [] nodes.zipIdx
  let spans ← saltEnds (saltAt d.edges (subtypeIds d.edges .spanning))
  let nodes ← saltStore (fun v o => { o with tokens := some v }) (saltGroup spans) nodes orders.spans
  let nodes ← saltStore (fun v o => { o with spans := some v }) (saltGroup (spans.map Prod.swap)) nodes orders.tokens
  let doms ← saltEnds (saltAt d.edges (subtypeIds d.edges .dominance))
  let nodes ← saltStore (fun v o => { o with dominates := some v }) (saltGroup doms) nodes orders.dominating
  let nodes ← saltStore (fun v o => { o with dominatedBy := some v }) (saltGroup (doms.map Prod.swap)) nodes orders.dominated
  .ok ⟨d.docId, text, nodes, d.edges, d.layers, sents⟩

/-- a bound of a slice of a sequence of `n` elements -/
def saltBound (n : Nat) (i : Int) : Nat := if 0 ≤ i then min i.toNat n else (i + n).toNat

/-- salt/saltxmi.py:264-270 `print_token` -/
def SaltLing.printToken (d : SaltLing) (i : Int) : Except PyErr String := do
  let k ← saltIndex d.nodes.length i
  match d.nodes[k]? with
  | none => .error .index
  | some o =>
    if o.cls.isSub .token then do
      let a ← saltAttr o.onset
      let b ← saltAttr o.offset
      .ok (pySlice d.text (saltBound d.text.toList.length a) (saltBound d.text.toList.length b))
    else .error .assertion

/-- salt/saltxmi.py:251-262 `print_sentence` -/
def SaltLing.printSentence (d : SaltLing) (i : Int) : Except PyErr String := do
  let k ← saltIndex d.sentences.length i
  match d.sentences[k]? with
  | none => .error .index
  | some s => do
    let ts ← DG.mapE (fun (t : Nat) => d.printToken t) s
    .ok (pyJoin " " ts)

end Dg
