/-
What a DeCour document says: units (introduction, turns, acts, utterances, conclusion) and their words.
-/
import Verif.Model.Decour
import Verif.Spec.Tiger
import Verif.Spec.RstGraph

namespace Dg
open DG

/-- a word with its annotations -/
structure DecWord where
  word : List Char
  feats : List (String × List Char)
  deriving DecidableEq, Repr

/-- a unit: its name, the name of the turn it is part of (`none`: part of the document) and its words -/
structure DecUnit where
  id : String
  parent : Option String
  words : List DecWord
  deriving DecidableEq, Repr

/-- the whitespace-separated words of a text -/
def XText.words (t : XText) : List DecWord := (splitWs (t.getD [])).map (fun w => ⟨w, []⟩)

/-- the words of an utterance with their normal forms, lemmas and parts of speech (the three children of the utterance) -/
def uttWords (text : XText) (children : List XText) : List DecWord :=
  let col (i : Nat) : List (List Char) := splitWs ((children[i]?.bind id).getD [])
  ((splitWs (text.getD [])).zip ((col 0).zip ((col 1).zip (col 2)))).map (fun w => ⟨w.1, [("norm", w.2.1), ("lemma", w.2.2.1), ("pos", w.2.2.2)]⟩)

namespace DecTurn

/-- the name of the turn -/
def id (t : DecTurn) : String := "turn_" ++ t.nr.getD ""

/-- the texts of the acts -/
def acts (t : DecTurn) : List XText := t.parts.filterMap DecPart.act?

/-- the units of the utterances -/
def utterances (t : DecTurn) : List DecUnit := t.parts.filterMap (fun p => match p with
  | .utterance nr text children => some ⟨"utterance_" ++ nr.getD "", some t.id, uttWords text children⟩
  | _ => none)

/-- the units of a turn, if the acts of earlier turns are numbered up to `k`: the turn, its first act, the utterances -/
def units (k : Nat) (t : DecTurn) : List DecUnit :=
  ⟨t.id, none, []⟩ :: ((t.acts.take 1).map (fun x => ⟨numbered "act" (k + 1), some t.id, x.words⟩) ++ t.utterances)

end DecTurn

/-- the units of the turns -/
def turnUnits : Nat → List DecTurn → List DecUnit
  | _, [] => []
  | k, t :: ts => t.units k ++ turnUnits (k + if t.acts = [] then 0 else 1) ts

namespace DecDoc

/-- all units in the order in which they are read -/
def units (doc : DecDoc) : List DecUnit :=
  ⟨"intro", none, XText.words (doc.intro.bind id)⟩ :: (turnUnits 0 doc.turns ++ doc.conclu.toList.map (fun t => ⟨"conclu", none, XText.words t⟩))

/-- all words with their units, numbered from 1 -/
def words (doc : DecDoc) : List ((DecUnit × DecWord) × Nat) := (doc.units.flatMap (fun u => u.words.map (fun w => (u, w)))).zipIdx 1

end DecDoc

/-- the reader can make sense of a part: the first act of a turn has a text, an utterance has a number, a text and three children (with texts) that have at least as many words as the utterance -/
def DecPart.Ok : DecPart → Prop
  | .act _ => True
  | .utterance nr text children => nr ≠ none ∧ ∃ t a b c, text = some t ∧ children = [some a, some b, some c] ∧
      (splitWs t).length ≤ (splitWs a).length ∧ (splitWs t).length ≤ (splitWs b).length ∧ (splitWs t).length ≤ (splitWs c).length

/-- the document has an introduction with text, all turns and utterances have numbers, and the parts can be read -/
structure DecDoc.Ok (doc : DecDoc) : Prop where
  intro : ∃ t, doc.intro = some (some t)
  conclu : ∀ t, doc.conclu = some t → t ≠ none
  turns : ∀ t ∈ doc.turns, t.nr ≠ none ∧ (∀ x, t.acts.head? = some x → x ≠ none) ∧ ∀ p ∈ t.parts, p.Ok

namespace DG

/-- name of the token with the given number -/
def decToken (i : Nat) : NodeId := .str ("token_" ++ String.ofList (decimal i))

/-- the attributes of a word -/
def decAttrs (ns : String) (w : DecWord) : Attrs := w.feats.map (fun f => (qual ns f.1, strVal f.2)) ++ [(qual ns "token", strVal w.word)]

/-- the edges: from the document or the turn to each unit, from each unit to its words -/
def decEdges (ns : String) (doc : DecDoc) : List EdgeSpec :=
  doc.units.map (fun u => ⟨match u.parent with | none => .str (ns ++ ":root_node") | some t => .str t, .str u.id, [ns, qual ns "discourse"], [("edge_type", strV "dominates")]⟩) ++
    doc.words.map (fun w => ⟨.str w.1.1.id, decToken w.2, [ns, qual ns "unit"], [("edge_type", strV "spans")]⟩)

/-- the graph of the document -/
structure DecContent (ns : String) (precedence : Bool) (doc : DecDoc) (g : DG) : Prop where
  space : g.ns = ns
  root : g.root = .str (ns ++ ":root_node")
  tokens : g.tokens = doc.words.map (fun w => decToken w.2)
  sentences : g.sentences = []
  nodes : ∀ m, g.HasNode m ↔ m = g.root ∨ m = .str "discoursegraph:root_node" ∨ (∃ u ∈ doc.units, m = .str u.id) ∨ ∃ w ∈ doc.words, m = decToken w.2
  edges : EdgesAre g (decEdges ns doc ++ if precedence then precEdges ns g.root g.tokens else [])
  layers : ∀ m l, g.NodeLayer m l ↔ (m = g.root ∧ l = .str ns) ∨ (m = .str "discoursegraph:root_node" ∧ l = .str "discoursegraph") ∨
    (∃ u ∈ doc.units, m = .str u.id ∧ l ∈ [ns, qual ns "unit"].map Atom.str) ∨ ∃ w ∈ doc.words, m = decToken w.2 ∧ l ∈ [ns, qual ns "token"].map Atom.str
  words : ∀ w ∈ doc.words, ∀ k, k ≠ "layers" → g.nodeAttr (decToken w.2) k = Dict.find (decAttrs ns w.1.2) k
  rest : ∀ m k, k ≠ "layers" → (∀ w ∈ doc.words, m ≠ decToken w.2) → g.nodeAttr m k = if m = .str "discoursegraph:root_node" ∧ k = "metadata" then some (.dict []) else none

end DG
end Dg
