/-
Specification of the content of a document graph read from an MMAX2 project, in terms of its words, markables, antecedents and sentences.
-/
import Verif.Model.Mmax
import Verif.Spec.RstGraph
import Verif.Spec.Tiger

namespace Dg

/-- A markable: its attributes in the file, the IDs its span stands for, and its antecedents (the ID of a markable, and the level if it is given as `level:id`). -/
structure Markable where
  attrs : XAttrs
  ids : List String
  antes : List (Option String × String)

namespace Markable

/-- the ID of a markable -/
def id (m : Markable) : String := xval m.attrs "id"

/-- the node of a markable -/
def node (m : Markable) : NodeId := .str m.id

/-- an antecedent as written in the file -/
def anteText (a : Option String × String) : List Char :=
  match a.1 with
  | none => a.2.toList
  | some l => l.toList ++ ':' :: a.2.toList

/-- the attributes contain an ID and the span (e.g. `word_1..word_3,word_7`) -/
structure Spans (m : Markable) : Prop where
  id : "id" ∈ Dict.keys m.attrs
  span : "span" ∈ Dict.keys m.attrs
  ids : convertSpanstring (xval m.attrs "span") = .ok m.ids

/-- the attributes contain an ID, the span, and the antecedents, separated by `;` -/
structure Ok (m : Markable) : Prop extends m.Spans where
  attrs : (Dict.keys m.attrs).Nodup
  without : m.antes = [] → Dict.find m.attrs "anaphor_antecedent" = none ∨ Dict.find m.attrs "anaphor_antecedent" = some "empty"
  pointer : m.antes ≠ [] → ∃ s, Dict.find m.attrs "anaphor_antecedent" = some s ∧ s ≠ "empty" ∧ s.toList = joinChars [';'] (m.antes.map anteText)
  chars : ∀ a ∈ m.antes, ∀ c ∈ [':', ';'], c ∉ a.2.toList ∧ ∀ l, a.1 = some l → c ∉ l.toList

end Markable

/-- A document: its words with their IDs, the levels with their markables, and the sentences (if they are kept apart from the other levels). -/
structure MmaxDoc where
  words : List (String × String)
  levels : List (String × List Markable)
  sents : List Markable

namespace MmaxDoc

/-- the IDs of the words -/
def wordIds (doc : MmaxDoc) : List String := doc.words.map Prod.fst

/-- the tokens -/
def tokens (doc : MmaxDoc) : List NodeId := doc.wordIds.map .str

/-- the markables with their levels -/
def marks (doc : MmaxDoc) : List (String × Markable) := doc.levels.flatMap (fun x => x.2.map (fun m => (x.1, m)))

/-- the IDs of the markables -/
def markIds (doc : MmaxDoc) : List String := doc.marks.map (fun x => x.2.id)

/-- the IDs of all antecedents -/
def anteIds (doc : MmaxDoc) : List String := doc.marks.flatMap (fun x => x.2.antes.map Prod.snd)

/-- the IDs of the sentences, if they are not among the levels -/
def sentIds (doc : MmaxDoc) (ignore : Bool) : List String := if ignore then doc.sents.map Markable.id else []

/-- the sentences -/
def sentences (doc : MmaxDoc) (ignore : Bool) : List Markable :=
  if ignore then doc.sents else (doc.marks.filter (fun x => x.1 = "sentence")).map Prod.snd

/-- the tokens of a markable: the IDs of its span for which there is a word -/
def toks (doc : MmaxDoc) (m : Markable) : List NodeId := (m.ids.filter (fun i => decide (i ∈ doc.wordIds))).map .str

/-- the document is fine, given the namespace and whether sentences are kept apart: IDs are used once; IDs in a span are words, or missing; antecedents need not exist.  There is at least one sentence, and each of them has a word.  Sentences are no antecedents and (if they are a level of markables) have none. -/
structure Ok (ns : String) (ignore : Bool) (doc : MmaxDoc) : Prop where
  levels : (doc.levels.map Prod.fst).Nodup
  marks : ∀ x ∈ doc.marks, x.2.Ok
  sents : ignore = true → ∀ m ∈ doc.sents, m.Spans
  ids : (doc.wordIds ++ doc.markIds ++ doc.sentIds ignore).Nodup
  root : qual ns "root_node" ∉ doc.wordIds ++ doc.markIds ++ doc.sentIds ignore
  stray : ∀ m, (∃ l, (l, m) ∈ doc.marks) ∨ m ∈ doc.sentences ignore → ∀ i ∈ m.ids, i ∈ doc.wordIds ∨ (i ∉ doc.markIds ++ doc.anteIds ++ doc.sentIds ignore ∧ i ≠ qual ns "root_node")
  sentences : doc.sentences ignore ≠ []
  sentenceToks : ∀ m ∈ doc.sentences ignore, doc.toks m ≠ []
  apart : ∀ i ∈ doc.sentIds ignore, i ∉ doc.anteIds
  plain : ignore = false → ∀ x ∈ doc.marks, (x.1 = "sentence" → x.2.antes = []) ∧ ∀ a ∈ x.2.antes, a.1 ≠ some "sentence"

end MmaxDoc

/-- the project contains the document -/
structure MmaxProject.Has (p : MmaxProject) (ignore : Bool) (doc : MmaxDoc) : Prop where
  words : p.words = doc.words.map (fun w => ⟨w.1, some w.2⟩)
  levels : doc.levels.map Prod.fst = if ignore then p.levels.filter (· ≠ "sentence") else p.levels
  files : ∀ x ∈ doc.levels, p.file (mmaxFileId p.base) x.1 = some (x.2.map Markable.attrs)
  sentences : ignore = true → "sentence" ∈ p.levels ∧ p.file (mmaxFileId p.base) "sentence" = some (doc.sents.map Markable.attrs)

namespace DG

/-- the layers of a level -/
def levelLayers (ns level : String) : List String := [ns, qual ns "markable", qual ns level]

/-- the label of an edge to an antecedent (if the level is given, there is no colon between the namespace and the level) -/
def anteLabel (ns : String) : Option String → String
  | none => ns ++ ":antecedent"
  | some l => ns ++ (l ++ ":antecedent")

/-- the edges of a markable: to its tokens and to its antecedents -/
def markEdges (ns : String) (doc : MmaxDoc) (x : String × Markable) : List EdgeSpec :=
  (doc.toks x.2).map (fun t => ⟨x.2.node, t, levelLayers ns x.1, [("edge_type", strV "spans"), ("label", strV (qual ns x.1))]⟩) ++
  x.2.antes.map (fun a => ⟨x.2.node, .str a.2, levelLayers ns x.1, [("edge_type", strV "points_to"), ("label", strV (anteLabel ns a.1))]⟩)

/-- the edges of the tokens -/
def wordEdges (ns : String) (precedence connected : Bool) (doc : MmaxDoc) : List EdgeSpec :=
  if precedence then precEdges ns (docRoot ns) doc.tokens
  else if connected then doc.tokens.map (fun t => ⟨docRoot ns, t, [ns, qual ns "token"], []⟩) else []

/-- the levels that are mentioned in antecedents given by the markables of a level -/
def NamedIn (ns : String) (doc : MmaxDoc) (level : String) (l : Atom) : Prop :=
  ∃ m, (level, m) ∈ doc.marks ∧ ∃ a ∈ m.antes, ∃ b, a.1 = some b ∧ l = .str (qual ns b)

/-- layers that a node may have besides those of its level: levels mentioned in antecedents of its level, and levels from which the node is pointed at (with the levels mentioned there) -/
def ExtraLayer (ns : String) (doc : MmaxDoc) (n : NodeId) (l : Atom) : Prop :=
  (∃ x ∈ doc.marks, n = x.2.node ∧ NamedIn ns doc x.1 l) ∨
  (∃ x ∈ doc.marks, ∃ a ∈ x.2.antes, n = .str a.2 ∧ a.2 ∉ doc.wordIds ∧ (l = .str (qual ns x.1) ∨ NamedIn ns doc x.1 l))

/-- layers that an edge of a markable may have besides those of its level -/
def ExtraEdgeLayer (ns : String) (doc : MmaxDoc) (n : NodeId) (l : Atom) : Prop := ∃ x ∈ doc.marks, n = x.2.node ∧ NamedIn ns doc x.1 l

/-- like `EdgesAre`, but edges may have additional layers, depending on their source -/
structure EdgesWithin (extra : NodeId → Atom → Prop) (g : DG) (es : List EdgeSpec) : Prop where
  sound : ∀ u v a, g.EdgeWith u v a → ∃ e ∈ es, e.source = u ∧ e.target = v ∧ (∀ k, k ≠ "layers" → Dict.find a k = Dict.find e.attrs k) ∧ (∀ l ∈ e.layers, AttrsLayer a (.str l)) ∧ ∀ l, AttrsLayer a l → l ∈ e.layers.map Atom.str ∨ extra u l
  complete : ∀ e ∈ es, ∃ a, g.EdgeWith e.source e.target a ∧ (∀ k, k ≠ "layers" → Dict.find a k = Dict.find e.attrs k) ∧ (∀ l ∈ e.layers, AttrsLayer a (.str l)) ∧ ∀ l, AttrsLayer a l → l ∈ e.layers.map Atom.str ∨ extra e.source l
  count : ∀ u v, g.edgeCount u v = es.countP (fun e => decide (e.source = u ∧ e.target = v))

/-- the attributes of a markable: those in the file, in the namespace, and a label -/
def markAttr (ns : String) (x : String × Markable) (k : String) : Option Val :=
  if k = "label" then some (strV (qual x.2.id x.1)) else Dict.find (xmlAttrs ns x.2.attrs) k

/-- the content of the graph of a document -/
structure MmaxContent (ns : String) (precedence connected ignore : Bool) (doc : MmaxDoc) (g : DG) : Prop where
  space : g.ns = ns
  root : g.root = docRoot ns
  /-- the nodes are the document, the words, the markables, all antecedents, and the sentences -/
  nodes : ∀ m, g.HasNode m ↔ m = docRoot ns ∨ ∃ i ∈ doc.wordIds ++ doc.markIds ++ doc.anteIds ++ doc.sentIds ignore, m = .str i
  tokens : g.tokens = doc.tokens
  /-- the sentences are sorted by their first tokens -/
  sentences : ∃ ss : List Markable, ss.Perm (doc.sentences ignore) ∧ g.sentences = ss.map Markable.node ∧
    ss.Pairwise (fun a b => naturalLe ((doc.toks a).headD (.int 0)) ((doc.toks b).headD (.int 0)) = true)
  /-- each markable is connected to its tokens and to its antecedents -/
  edges : EdgesWithin (ExtraEdgeLayer ns doc) g (wordEdges ns precedence connected doc ++ doc.marks.flatMap (markEdges ns doc))
  word : ∀ w ∈ doc.words, ∀ k, k ≠ "layers" → g.nodeAttr (.str w.1) k = if k = "label" ∨ k = qual ns "token" then some (strV w.2) else none
  /-- a markable has the attributes given in the file -/
  mark : ∀ x ∈ doc.marks, ∀ k, k ≠ "layers" → k ≠ "tokens" → g.nodeAttr x.2.node k = markAttr ns x k
  /-- an antecedent that is neither a word nor a markable has no attributes -/
  missing : ∀ i ∈ doc.anteIds, i ∉ doc.wordIds → i ∉ doc.markIds → ∀ k, k ≠ "layers" → g.nodeAttr (.str i) k = none
  sentence : ∀ m ∈ doc.sentences ignore, g.nodeAttr m.node "tokens" = some (idListVal (doc.toks m)) ∧ (ignore = true → ∀ k, k ≠ "layers" → k ≠ "tokens" → g.nodeAttr m.node k = none)
  noTokens : ∀ x ∈ doc.marks, (ignore = true ∨ x.1 ≠ "sentence") → g.nodeAttr x.2.node "tokens" = none
  rootAttr : ∀ k, k ≠ "layers" → g.nodeAttr (docRoot ns) k = if k = "metadata" then some (.dict []) else none
  wordLayer : ∀ i ∈ doc.wordIds, ∀ l, g.NodeLayer (.str i) l ↔ l ∈ [ns, qual ns "token"].map Atom.str
  markLayer : ∀ x ∈ doc.marks, (∀ l ∈ levelLayers ns x.1, g.NodeLayer x.2.node (.str l)) ∧ ∀ l, g.NodeLayer x.2.node l → l ∈ (levelLayers ns x.1).map Atom.str ∨ ExtraLayer ns doc x.2.node l
  missingLayer : ∀ i ∈ doc.anteIds, i ∉ doc.wordIds → i ∉ doc.markIds → (∀ l ∈ [ns, qual ns "markable"], g.NodeLayer (.str i) (.str l)) ∧ ∀ l, g.NodeLayer (.str i) l → l ∈ [ns, qual ns "markable"].map Atom.str ∨ ExtraLayer ns doc (.str i) l
  sentenceLayer : ignore = true → ∀ m ∈ doc.sents, ∀ l, g.NodeLayer m.node l ↔ l ∈ [ns, qual ns "sentence"].map Atom.str
  rootLayer : ∀ l, g.NodeLayer (docRoot ns) l ↔ l = .str ns

end DG
end Dg
