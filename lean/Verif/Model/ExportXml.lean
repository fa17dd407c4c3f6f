/-
Reader of ExportXML documents (src/discoursegraphs/readwrite/exportxml.py), e.g. of the corpus Tüba-D/Z.
The input is a `<text>` element, as the XML parser sees it.  The corpus is in Model/CorpusIter.  Not modelled: comments inside of the text, the ancestors of the `<text>` element.
-/
import Verif.Model.Dis
import Verif.Model.Mmax
import Verif.Model.Spanstring

namespace Dg

/-- an XML element: its tag, its `xml:id`, its other attributes and its children -/
inductive XElem
  | mk (tag : String) (id : Option String) (attrs : XAttrs) (children : List XElem)

namespace XElem

/-- `element.tag` -/
def tag : XElem → String
  | mk t _ _ _ => t

/-- `element.attrib[add_ns('id')]` -/
def id : XElem → Option String
  | mk _ i _ _ => i

/-- `element.attrib` without the ID -/
def attrs : XElem → XAttrs
  | mk _ _ a _ => a

/-- `element.iterchildren()` -/
def children : XElem → List XElem
  | mk _ _ _ cs => cs

end XElem

/-- an element together with its ancestors, the closest one first -/
abbrev XRow := List XElem × XElem

mutual
/-- `element.iterdescendants()`: all descendants in document order; `anc` are the ancestors of the element -/
def XElem.descs (anc : List XElem) : XElem → List XRow
  | .mk t i a cs => XElem.descsL (.mk t i a cs :: anc) cs
/-- the given elements and their descendants in document order -/
def XElem.descsL (anc : List XElem) : List XElem → List XRow
  | [] => []
  | c :: cs => (anc, c) :: (XElem.descs anc c ++ XElem.descsL anc cs)
end

/-- `element.iterdescendants(tag)` -/
def XElem.descsTagged (r : XRow) (tag : String) : List XRow := (r.2.descs r.1).filter (fun x => decide (x.2.tag = tag))

/-- exportxml.py:677-691 `get_element_id`: the ID of the element or of its parent (an element without parent: AttributeError) -/
def expElementId (r : XRow) : Except PyErr String :=
  match r.2.id with
  | some i => .ok i
  | none =>
    match r.1 with
    | [] => .error .attribute
    | p :: _ =>
      match p.id with
      | some i => .ok i
      | none => .error .key

/-- exportxml.py:693-699 `get_parent_id` -/
def expParentId (r : XRow) : Except PyErr String :=
  match Dict.find r.2.attrs "parent" with
  | some p => .ok p
  | none =>
    match r.1 with
    | [] => .error .attribute
    | p :: _ =>
      match p.id with
      | some i => .ok i
      | none => .error .key

/-- `s.split('_')[0]` -/
def idPrefix (s : String) : String := String.ofList ((splitChars '_' s.toList).headD [])

/-- the closest ancestor with one of the given tags: `iterancestors(tags).next()` -/
def expAncestor (tags : List String) : List XElem → Option XRow
  | [] => none
  | a :: rest => if a.tag ∈ tags then some (rest, a) else expAncestor tags rest

/-- exportxml.py:701-711 `get_sentence_id` -/
def expSentenceId (r : XRow) : Except PyErr String :=
  match expAncestor ["sentence"] r.1 with
  | some s => expElementId s
  | none => do
    let i ← expElementId r
    return idPrefix i

/-- exportxml.py:641-654: the parent of a word -/
def expWordParent (r : XRow) : Except PyErr String :=
  match r.1 with
  | [] => .error .attribute
  | p :: _ =>
    if p.tag ∈ ["node", "sentence"] then expParentId r
    else
      match expAncestor ["node", "sentence"] r.1 with
      | some a => expElementId a
      | none => do
        let i ← expElementId r
        return idPrefix i

/-- exportxml.py:445-451: the parent of a `<node>` -/
def expNodeParent (r : XRow) : Except PyErr String :=
  match Dict.find r.2.attrs "parent" with
  | some _ => expParentId r
  | none => expSentenceId r

/-- exportxml.py:543-555: the tokens of a sentence -/
def expSentenceTokens (r : XRow) : Except PyErr (List String) :=
  match Dict.find r.2.attrs "span" with
  | some s => convertSpanstring s
  | none => DG.mapE expElementId (XElem.descsTagged r "word")

/-- the `ignore_…` options of the reader -/
structure ExpOpts where
  relations : Bool := false
  splitrelations : Bool := false
  secedges : Bool := false

/-- the key of `xml:id` in `element.attrib` -/
def xmlIdKey : String := "{http://www.w3.org/XML/1998/namespace}id"

namespace DG

/-- exportxml.py:252-273 `add_connective`.  (`self.node[n]['layers'].add(l)` is the effect of `add_layer(n, l)`.) -/
def expConnective (r : XRow) (g : DG) : Except PyErr DG := do
  let n ← expElementId r
  let all := (match r.2.id with | some i => [(xmlIdKey, i)] | none => []) ++ r.2.attrs
  let d := (all.filter (fun kv => decide (kv.1 ≠ "konn"))).map (fun kv => (kv.1, Atom.str kv.2))
  let g1 ← batch (g.addLayer (.node (.str n)) (.atom (.str (qual g.ns "connective"))))
  g1.updateNode (.str n) [("connective", .dict d)]

/-- exportxml.py:275-319 `add_discrel` -/
def expDiscrel (o : ExpOpts) (r : XRow) (g : DG) : Except PyErr DG :=
  if o.relations then .ok g else do
    let n ← expElementId r
    let arg2 ← elemAttr r.2.attrs "arg2"
    let rel ← elemAttr r.2.attrs "relation"
    let g1 ← g.updateNode (.str n) (tigerFeats g.ns r.2.attrs)
    let g2 ← batch (g1.addLayer (.node (.str n)) (.atom (.str (qual g1.ns "discourse"))))
    let g3 ← batch (g2.addLayer (.node (.str n)) (.atom (.str (qual g2.ns "relation"))))
    g3.addEdge (.str n) (.str arg2) (.set [.str g3.ns, .str (qual g3.ns "discourse"), .str (qual g3.ns "relation")]) none .none
      [("edge_type", .atom (.str "points_to")), ("relation", .atom (.str rel)), ("label", .atom (.str ("discourse:" ++ rel)))]

/-- the loops in lines 346-351, 391-394 and 625-630: a spanning edge to each of the given elements -/
def expSpans (n layer : String) (g : DG) (x : XRow) : Except PyErr DG := do
  let w ← expElementId x
  g.addEdge (.str n) (.str w) (.set [.str g.ns, .str (qual g.ns layer)]) none .none [("edge_type", .atom (.str "spans"))]

/-- exportxml.py:321-353 `add_edu` -/
def expEdu (r : XRow) (g : DG) : Except PyErr DG := do
  let n ← expElementId r
  let g1 ← g.addNode (.str n) (.set [.str g.ns, .str (qual g.ns "edu")]) (.dict (tigerFeats g.ns r.2.attrs)) []
  let words := XElem.descsTagged r "word"
  let g2 ← words.foldlM (expSpans n "edu") g1
  let ids ← mapE expElementId words
  g2.setAttr (.str n) "tokens" (idListVal (ids.map NodeId.str))

/-- exportxml.py:355-394 `add_edurange` -/
def expEdurange (r : XRow) (g : DG) : Except PyErr DG := do
  let n ← expElementId r
  let g1 ← g.addNode (.str n) (.set [.str g.ns, .str (qual g.ns "edu:range")]) (.dict (tigerFeats g.ns r.2.attrs)) []
  (XElem.descsTagged r "edu").foldlM (expSpans n "edu:range") g1

/-- exportxml.py:396-421 `add_ne` -/
def expNe (r : XRow) (g : DG) : Except PyErr DG := do
  let n ← expElementId r
  let ty ← elemAttr r.2.attrs "type"
  let g1 ← g.addNode (.str n) (.set [.str g.ns, .str (qual g.ns "ne")]) (.dict (tigerFeats g.ns r.2.attrs)) [("label", .atom (.str ("ne:" ++ ty)))]
  r.2.children.foldlM (fun g c => do
    let w ← expElementId (r.2 :: r.1, c)
    g.addEdge (.str n) (.str w) (.set [.str g.ns, .str (qual g.ns "ne")]) none .none [("edge_type", .atom (.str "spans")), ("label", .atom (.str ("ne:" ++ ty)))]) g1

/-- exportxml.py:423-457 `add_node_element` -/
def expNode (r : XRow) (g : DG) : Except PyErr DG := do
  let n ← expElementId r
  let p ← expNodeParent r
  let cat ← elemAttr r.2.attrs "cat"
  let g1 ← g.addNode (.str n) (.set [.str g.ns, .str (qual g.ns "syntax")]) (.dict (tigerFeats g.ns r.2.attrs)) [("label", .atom (.str cat))]
  g1.addEdge (.str p) (.str n) (.atom .none) none .none [("edge_type", .atom (.str "dominates"))]

/-- exportxml.py:459-504 `add_relation` -/
def expRelation (o : ExpOpts) (r : XRow) (g : DG) : Except PyErr DG :=
  if o.relations then .ok g else do
    let p ← expParentId r
    let ty ← elemAttr r.2.attrs "type"
    let g1 ← g.updateNode (.str p) [("relation", .atom (.str ty))]
    let g2 ← batch (g1.addLayer (.node (.str p)) (.atom (.str (qual g1.ns ty))))
    match Dict.find r.2.attrs "target" with
    | none => return g2
    | some t =>
      let g3 ← batch (g2.addLayer (.node (.str p)) (.atom (.str (qual g2.ns "markable"))))
      let g4 ← g3.addEdge (.str p) (.str t) (.set [.str g3.ns, .str (qual g3.ns ty), .str (qual g3.ns "coreference")]) none .none
        [("label", .atom (.str ty)), ("edge_type", .atom (.str "points_to"))]
      batch (g4.addLayer (.node (.str t)) (.atom (.str (qual g4.ns "markable"))))

/-- exportxml.py:506-529 `add_secedge` -/
def expSecedge (o : ExpOpts) (r : XRow) (g : DG) : Except PyErr DG :=
  if o.secedges then .ok g else do
    let s ← expParentId r
    let t ← expElementId r
    let cat ← elemAttr r.2.attrs "cat"
    g.addEdge (.str s) (.str t) (.set [.str g.ns, .str (qual g.ns "secedge")]) none .none [("label", .atom (.str ("secedge:" ++ cat))), ("edge_type", .atom (.str "points_to"))]

/-- exportxml.py:531-557 `add_sentence` -/
def expSentence (r : XRow) (g : DG) : Except PyErr DG :=
  match r.2.id with
  | none => .error .key
  | some n => do
    let g1 ← g.addEdge g.root (.str n) (.atom .none) none .none [("edge_type", .atom (.str "dominates"))]
    let g2 : DG := { g1 with sentences := g1.sentences ++ [.str n] }
    let ids ← expSentenceTokens r
    g2.setAttr (.str n) "tokens" (idListVal (ids.map NodeId.str))

/-- exportxml.py:559-600 `add_splitrelation` -/
def expSplit (o : ExpOpts) (r : XRow) (g : DG) : Except PyErr DG :=
  if o.relations || o.splitrelations then .ok g else do
    let n ← expElementId r
    let tstr ← elemAttr r.2.attrs "target"
    let targets := (splitWs tstr.toList).map String.ofList
    let span := String.intercalate "__" targets
    let ty ← elemAttr r.2.attrs "type"
    let g1 ← g.addNode (.str n) (.set [.str g.ns, .str (qual g.ns "relation"), .str (qual g.ns ty), .str (qual g.ns "markable")]) .none []
    let g2 ← g1.addNode (.str span) (.set [.str g1.ns, .str (qual g1.ns "targetspan"), .str (qual g1.ns ty), .str (qual g1.ns "markable")]) .none []
    let g3 ← g2.addEdge (.str n) (.str span) (.set [.str g2.ns, .str (qual g2.ns "coreference"), .str (qual g2.ns "splitrelation"), .str (qual g2.ns ty)]) none .none
      [("edge_type", .atom (.str "points_to"))]
    targets.foldlM (fun g t => g.addEdge (.str span) (.str t) (.set [.str g.ns, .str (qual g.ns ty)]) none .none [("edge_type", .atom (.str "spans"))]) g3

/-- exportxml.py:602-631 `add_topic` -/
def expTopic (r : XRow) (g : DG) : Except PyErr DG := do
  let n ← expElementId r
  let desc ← elemAttr r.2.attrs "description"
  let g1 ← g.addNode (.str n) (.set [.str g.ns, .str (qual g.ns "topic")]) .none [("description", .atom (.str desc))]
  let words := XElem.descsTagged r "word"
  let g2 ← words.foldlM (expSpans n "topic") g1
  let ids ← mapE expElementId words
  g2.setAttr (.str n) "tokens" (idListVal (ids.map NodeId.str))

/-- exportxml.py:633-665 `add_word`, without the last line -/
def expWord (r : XRow) (g : DG) : Except PyErr DG := do
  let n ← expElementId r
  let p ← expWordParent r
  let g1 : DG := { g with tokens := g.tokens ++ [.str n] }
  let d := tigerFeats g1.ns r.2.attrs
  let form ← featAt d (qual g1.ns "form")
  let g2 ← g1.addNode (.str n) (.set [.str g1.ns, .str (qual g1.ns "token")]) (.dict (Dict.upd d [(qual g1.ns "token", form), ("label", form)])) []
  g2.addEdge (.str p) (.str n) (.atom .none) none .none [("edge_type", .atom (.str "dominates"))]

/-- the table `self.parsers`, exportxml.py:220-235 (a word without its children; KeyError for another tag) -/
def expStep (o : ExpOpts) (g : DG) (r : XRow) : Except PyErr DG :=
  if r.2.tag = "connective" then expConnective r g
  else if r.2.tag = "discRel" then expDiscrel o r g
  else if r.2.tag = "edu" then expEdu r g
  else if r.2.tag = "edu-range" then expEdurange r g
  else if r.2.tag = "ne" then expNe r g
  else if r.2.tag = "node" then expNode r g
  else if r.2.tag = "relation" then expRelation o r g
  else if r.2.tag = "secEdge" then expSecedge o r g
  else if r.2.tag = "sentence" then expSentence r g
  else if r.2.tag = "splitRelation" then expSplit o r g
  else if r.2.tag = "topic" then expTopic r g
  else if r.2.tag = "word" then expWord r g
  else .error .key

mutual
/-- `self.parsers[element.tag](element)`; `add_word` parses the children of the word (line 666) -/
def expElem (o : ExpOpts) (anc : List XElem) (g : DG) : XElem → Except PyErr DG
  | .mk t i a cs => do
    let g1 ← expStep o g (anc, .mk t i a cs)
    if t = "word" then expChildren o (.mk t i a cs :: anc) g1 cs else .ok g1
/-- exportxml.py:242-245 `parse_child_elements` -/
def expChildren (o : ExpOpts) (anc : List XElem) (g : DG) : List XElem → Except PyErr DG
  | [] => .ok g
  | c :: cs => do
    let g1 ← expElem o anc g c
    expChildren o anc g1 cs
end

/-- exportxml.py:166-240, 247-250: `ExportXMLDocumentGraph(text_element, name, namespace, precedence, ignore_relations, ignore_splitrelations, ignore_secedges)` -/
def expRead (name : Option String) (ns : String) (precedence : Bool) (o : ExpOpts) (text : XElem) : Except PyErr DG :=
  match text.id with
  | none => .error .key
  | some i => do
    let g0 : DG := { init "" ns (some (.str i)) with name := match name with
      | some n => if n = "" then i else n
      | none => i }
    let g ← (text.descs []).foldlM (fun g r => expElem o r.1 g r.2) g0
    if precedence then batch g.addPrecedenceRelations else .ok g

end DG
end Dg
