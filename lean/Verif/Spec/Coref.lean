/-
Specification vocabulary for the writers of coreference annotations (C38, C39).
-/
import Verif.Spec.Offsets
import Verif.Model.Coref

namespace Dg
namespace DG

/-- the span attribute (in namespace `ns`) of the markable `m` stands for the tokens `ts`: `spanstring2tokens(g, g.node[m][ns+':span']) == ts` -/
def MarksTokens (g : DG) (ns : String) (m : NodeId) (ts : List NodeId) : Prop :=
  ∃ s, g.nodeAttr m (ns ++ (":" ++ "span")) = some (.atom (.str s)) ∧ g.spanstring2tokens s = .ok ts

/-- the tokens `ts` stand next to each other in the document -/
def Contiguous (g : DG) (ts : List NodeId) : Prop := ∃ pre post, g.tokens = pre ++ ts ++ post

/-- The brat line `l` describes a markable with the tokens `ts`: its onset is the position at which the first token of the markable starts in the document text, its text is
the text of the tokens, its offset is that many characters after the onset. -/
def Describes (g : DG) (strs : List String) (ts : List NodeId) (l : TLine) : Prop :=
  (∃ (i : Nat) (t : NodeId), g.tokens[i]? = some t ∧ ts.head? = some t ∧ l.onset = startOf strs i) ∧
  (∃ ss, List.Forall₂ g.TokenStr ts ss ∧ String.ofList l.text = pyJoin " " ss) ∧
  l.offset = l.onset + l.text.length

/-- the pairs of neighbours in a list -/
def neighbours {α : Type} : List α → List (α × α)
  | a :: b :: r => (a, b) :: neighbours (b :: r)
  | _ => []

/-- What C39 assumes about the markables of the chains: they are nodes; `sp` tells which of them have a span attribute; the first token of such a span is the token number `a m` of the document,
the last one the token number `b m`, and the first one does not come after the last one. -/
def BracketSpans (g : DG) (ns : String) (ms : List NodeId) (sp : NodeId → Bool) (a b : NodeId → Nat) : Prop :=
  ∀ m ∈ ms, g.HasNode m ∧ (sp m = true ↔ ∃ v, g.nodeAttr m (ns ++ (":" ++ "span")) = some v) ∧
    (sp m = true → ∃ ts t u, g.MarksTokens ns m ts ∧ ts.head? = some t ∧ ts.getLast? = some u ∧ g.tokens[a m]? = some t ∧ g.tokens[b m]? = some u ∧ a m ≤ b m)

/-- The spans are nested: if one begins later than another one, it lies behind it or within it; if both begin at the same token, the one with the smaller ID (in natural order) contains the
other one. -/
def NestedSpans (ms : List NodeId) (a b : NodeId → Nat) : Prop :=
  ∀ m ∈ ms, ∀ n ∈ ms, (a m < a n → b m < a n ∨ b n ≤ b m) ∧ (a m = a n → naturalLe m n = true → b n ≤ b m)

end DG
end Dg
