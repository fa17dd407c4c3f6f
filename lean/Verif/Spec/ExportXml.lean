/-
What an ExportXML document says: for each element the edges, the layers and the attributes it stands for.
-/
import Verif.Model.ExportXml
import Verif.Spec.Tiger
import Verif.Spec.RstGraph

namespace Dg
open DG

/-- the elements which have an ID and become a node of the graph -/
def expOwners : List String := ["edu", "edu-range", "ne", "node", "sentence", "topic", "word"]

/-- the elements which annotate their parent -/
def expNotes : List String := ["connective", "discRel", "relation", "secEdge", "splitRelation"]

/-- the part of a string before the first underscore -/
def beforeUnderscore (s : String) : String := String.ofList (s.toList.takeWhile (fun c => decide (c ≠ '_')))

namespace XRow

/-- the ID of the element, or of its parent -/
def own (r : XRow) : String := (r.2.id.or (r.1.head?.bind XElem.id)).getD ""

/-- the ID of the closest ancestor with one of the tags -/
def closest (tags : List String) (r : XRow) : Option String := (r.1.find? (fun a => decide (a.tag ∈ tags))).bind XElem.id

/-- the parent of a `<node>`: the element named by its attribute `parent`; without it the sentence it is part of; outside of a sentence the part of the ID before the first underscore -/
def nodeParent (r : XRow) : String := (Dict.find r.2.attrs "parent").getD ((closest ["sentence"] r).getD (beforeUnderscore (own r)))

/-- the parent of a `<word>`: if it is a child of a `<node>` or `<sentence>`, the element named by its attribute `parent`; otherwise the closest `<node>` or `<sentence>` above it; without such an element the part of the ID before the first underscore -/
def wordParent (r : XRow) : String :=
  (if r.1.head?.any (fun a => decide (a.tag ∈ ["node", "sentence"])) then Dict.find r.2.attrs "parent" else none).getD
    ((closest ["node", "sentence"] r).getD (beforeUnderscore (own r)))

/-- the value of an attribute -/
def at' (r : XRow) (k : String) : String := (Dict.find r.2.attrs k).getD ""

/-- the IDs of the elements with the given tag inside of the element, in document order -/
def inside (r : XRow) (tag : String) : List String := (XElem.descsTagged r tag).map own

/-- the targets of a `<splitRelation>` -/
def targets (r : XRow) : List String := (splitWs (at' r "target").toList).map String.ofList

/-- the node that stands for all targets of a `<splitRelation>` -/
def targetSpan (r : XRow) : String := String.intercalate "__" (targets r)

/-- the edges an element stands for -/
def edges (o : ExpOpts) (ns : String) (root : NodeId) (r : XRow) : List EdgeSpec :=
  if r.2.tag = "word" then [⟨.str (wordParent r), .str (own r), [ns], [("edge_type", strV "dominates")]⟩]
  else if r.2.tag = "node" then [⟨.str (nodeParent r), .str (own r), [ns], [("edge_type", strV "dominates")]⟩]
  else if r.2.tag = "sentence" then [⟨root, .str (own r), [ns], [("edge_type", strV "dominates")]⟩]
  else if r.2.tag = "edu" then (inside r "word").map (fun w => ⟨.str (own r), .str w, [ns, qual ns "edu"], [("edge_type", strV "spans")]⟩)
  else if r.2.tag = "topic" then (inside r "word").map (fun w => ⟨.str (own r), .str w, [ns, qual ns "topic"], [("edge_type", strV "spans")]⟩)
  else if r.2.tag = "edu-range" then (inside r "edu").map (fun e => ⟨.str (own r), .str e, [ns, qual ns "edu:range"], [("edge_type", strV "spans")]⟩)
  else if r.2.tag = "ne" then r.2.children.map (fun c => ⟨.str (own r), .str (c.id.getD (own r)), [ns, qual ns "ne"], [("edge_type", strV "spans"), ("label", strV ("ne:" ++ at' r "type"))]⟩)
  else if r.2.tag = "discRel" ∧ o.relations = false then
    [⟨.str (own r), .str (at' r "arg2"), [ns, qual ns "discourse", qual ns "relation"], [("edge_type", strV "points_to"), ("relation", strV (at' r "relation")), ("label", strV ("discourse:" ++ at' r "relation"))]⟩]
  else if r.2.tag = "relation" ∧ o.relations = false then
    match Dict.find r.2.attrs "target" with
    | some t => [⟨.str (own r), .str t, [ns, qual ns (at' r "type"), qual ns "coreference"], [("label", strV (at' r "type")), ("edge_type", strV "points_to")]⟩]
    | none => []
  else if r.2.tag = "secEdge" ∧ o.secedges = false then
    [⟨.str ((Dict.find r.2.attrs "parent").getD (own r)), .str (own r), [ns, qual ns "secedge"], [("label", strV ("secedge:" ++ at' r "cat")), ("edge_type", strV "points_to")]⟩]
  else if r.2.tag = "splitRelation" ∧ o.relations = false ∧ o.splitrelations = false then
    ⟨.str (own r), .str (targetSpan r), [ns, qual ns "coreference", qual ns "splitrelation", qual ns (at' r "type")], [("edge_type", strV "points_to")]⟩ ::
      (targets r).map (fun t => ⟨.str (targetSpan r), .str t, [ns, qual ns (at' r "type")], [("edge_type", strV "spans")]⟩)
  else []

/-- the layers an element gives to nodes (in addition to the namespace, the layer of all nodes) -/
def layers (o : ExpOpts) (ns : String) (r : XRow) : List (String × String) :=
  if r.2.tag = "word" then [(own r, qual ns "token")]
  else if r.2.tag = "node" then [(own r, qual ns "syntax")]
  else if r.2.tag = "edu" then [(own r, qual ns "edu")]
  else if r.2.tag = "topic" then [(own r, qual ns "topic")]
  else if r.2.tag = "edu-range" then [(own r, qual ns "edu:range")]
  else if r.2.tag = "ne" then [(own r, qual ns "ne")]
  else if r.2.tag = "connective" then [(own r, qual ns "connective")]
  else if r.2.tag = "discRel" ∧ o.relations = false then [(own r, qual ns "discourse"), (own r, qual ns "relation")]
  else if r.2.tag = "relation" ∧ o.relations = false then
    (own r, qual ns (at' r "type")) ::
      match Dict.find r.2.attrs "target" with
      | some t => [(own r, qual ns "markable"), (t, qual ns "markable")]
      | none => []
  else if r.2.tag = "splitRelation" ∧ o.relations = false ∧ o.splitrelations = false then
    [(own r, qual ns "relation"), (own r, qual ns (at' r "type")), (own r, qual ns "markable"),
      (targetSpan r, qual ns "targetspan"), (targetSpan r, qual ns (at' r "type")), (targetSpan r, qual ns "markable")]
  else []

/-- the attributes an element gives to a node: node, name, value; later ones replace earlier ones -/
def writes (o : ExpOpts) (ns : String) (r : XRow) : List (String × String × Val) :=
  let xml := r.2.attrs.map (fun kv => (own r, qual ns kv.1, strV kv.2))
  let ids (l : List String) : Val := .list (l.map Atom.str)
  if r.2.tag = "word" then xml ++ [(own r, qual ns "token", strV (at' r "form")), (own r, "label", strV (at' r "form"))]
  else if r.2.tag = "node" then xml ++ [(own r, "label", strV (at' r "cat"))]
  else if r.2.tag = "sentence" then
    [(own r, "tokens", match Dict.find r.2.attrs "span" with
      | some s => ids ((convertSpanstring s).toOption.getD [])
      | none => ids (inside r "word"))]
  else if r.2.tag = "edu" then xml ++ [(own r, "tokens", ids (inside r "word"))]
  else if r.2.tag = "topic" then [(own r, "description", strV (at' r "description")), (own r, "tokens", ids (inside r "word"))]
  else if r.2.tag = "edu-range" then xml
  else if r.2.tag = "ne" then xml ++ [(own r, "label", strV ("ne:" ++ at' r "type"))]
  else if r.2.tag = "connective" then [(own r, "connective", .dict ((r.2.attrs.filter (fun kv => decide (kv.1 ≠ "konn"))).map (fun kv => (kv.1, Atom.str kv.2))))]
  else if r.2.tag = "discRel" ∧ o.relations = false then xml
  else if r.2.tag = "relation" ∧ o.relations = false then [(own r, "relation", strV (at' r "type"))]
  else []

/-- the attributes an element must have -/
def required (tag : String) : List String :=
  if tag = "word" then ["form"]
  else if tag = "node" then ["cat"]
  else if tag = "topic" then ["description"]
  else if tag = "ne" then ["type"]
  else if tag = "discRel" then ["arg2", "relation"]
  else if tag = "relation" then ["type"]
  else if tag = "secEdge" then ["cat"]
  else if tag = "splitRelation" then ["target", "type"]
  else []

/-- the element is as it should be: its tag is known, it has an ID or annotates a parent with an ID; the XML attributes are unique and the necessary ones are there; the tokens of a sentence can be enumerated -/
structure Ok (r : XRow) : Prop where
  tag : (r.2.tag ∈ expOwners ∧ r.2.id ≠ none) ∨ (r.2.tag ∈ expNotes ∧ r.2.id = none ∧ ∃ p rest i, r.1 = p :: rest ∧ p.id = some i)
  keys : (Dict.keys r.2.attrs).Nodup
  attrs : ∀ k ∈ required r.2.tag, k ∈ Dict.keys r.2.attrs
  parent : r.2.tag = "relation" → "parent" ∉ Dict.keys r.2.attrs
  span : r.2.tag = "sentence" → ∀ s, Dict.find r.2.attrs "span" = some s → (convertSpanstring s).isOk = true

/-- the number of times the reader reads the element: the children of a word are read with the word, and again as descendants of the text -/
def times (r : XRow) : Nat := 1 + (r.1.takeWhile (fun a => decide (a.tag = "word"))).length

end XRow

/-- the text has an ID and its elements are as they should be -/
structure ExpOk (text : XElem) : Prop where
  tag : text.tag = "text"
  id : text.id ≠ none ∧ text.id ≠ some ""
  rows : ∀ r ∈ text.descs [], XRow.Ok r

/-- the last value in a list of assignments -/
def lastOf (m : NodeId) (k : String) (ws : List (String × String × Val)) : Option Val :=
  (ws.reverse.find? (fun w => decide (NodeId.str w.1 = m ∧ w.2.1 = k))).map (fun w => w.2.2)

mutual
/-- the elements read together with an element: the element itself and, if it is a word, what is read with its children -/
def XElem.reads (anc : List XElem) : XElem → List XRow
  | .mk t i a cs => (anc, .mk t i a cs) :: if t = "word" then XElem.readsL (.mk t i a cs :: anc) cs else []
@[inherit_doc XElem.reads] def XElem.readsL (anc : List XElem) : List XElem → List XRow
  | [] => []
  | c :: cs => XElem.reads anc c ++ XElem.readsL anc cs
end

/-- all elements in the order in which the reader reads them -/
def XElem.rows (text : XElem) : List XRow := (text.descs []).flatMap (fun r => r.2.reads r.1)

end Dg

namespace Dg
open DG

/-- the node of the text -/
def XElem.node (text : XElem) : NodeId := .str (text.id.getD "")

/-- all edges that stand for elements: those of each element, as often as it is read -/
def XElem.edges (o : ExpOpts) (ns : String) (text : XElem) : List EdgeSpec :=
  (text.descs []).flatMap (fun r => (List.replicate (XRow.times r) (XRow.edges o ns text.node r)).flatten)

/-- the IDs of the words in the order in which they are read -/
def XElem.words (text : XElem) : List NodeId := (text.rows.filter (fun r => decide (r.2.tag = "word"))).map (fun r => .str (XRow.own r))

/-- the element stands for something that involves the node -/
def XRow.Involves (o : ExpOpts) (ns : String) (root : NodeId) (r : XRow) (m : NodeId) : Prop :=
  (∃ e ∈ XRow.edges o ns root r, e.source = m ∨ e.target = m) ∨ ∃ p ∈ XRow.layers o ns r, m = .str p.1

/-- the graph of the document -/
structure ExpContent (o : ExpOpts) (ns : String) (precedence : Bool) (text : XElem) (g : DG) : Prop where
  space : g.ns = ns
  root : g.root = text.node
  tokens : g.tokens = text.words
  sentences : g.sentences = (text.rows.filter (fun r => decide (r.2.tag = "sentence"))).map (fun r => .str (XRow.own r))
  nodes : ∀ m, g.HasNode m ↔ m = text.node ∨ ∃ r ∈ text.descs [], XRow.Involves o ns text.node r m
  edges : EdgesAre g (text.edges o ns ++ if precedence then precEdges ns text.node text.words else [])
  layers : ∀ m l, g.NodeLayer m l ↔ (g.HasNode m ∧ l = .str ns) ∨ ∃ r ∈ text.descs [], ∃ p ∈ XRow.layers o ns r, m = .str p.1 ∧ l = .str p.2
  attrs : ∀ m k, k ≠ "layers" → g.nodeAttr m k = (lastOf m k (text.rows.flatMap (XRow.writes o ns))).or (if m = text.node ∧ k = "metadata" then some (.dict []) else none)

end Dg
