/-
Specification of the layers made by the readers (C75).
-/
import Verif.Spec.Layered
import Verif.Spec.Anaphoricity
import Verif.Spec.Tiger

namespace Dg

/-- the string of the token for a word of an anaphoricity file: the annotated pronoun, or the whole word if nothing is annotated -/
def AnaphString (w : List Char) (s : String) : Prop := (Unannotated w ∧ s = String.ofList w) ∨ ∃ t ty u, Annotated w t ty u ∧ s = String.ofList t

/-- `s` is the word of the terminal with the ID of `n` -/
def TigerWord (ss : List TigerS) (n : NodeId) (s : String) : Prop := ∃ x ∈ ss, ∃ t ∈ x.terms, t.node = n ∧ Dict.find t.attrs "word" = some s

/-- the layer does not use the token attribute of another namespace, and has no edges from a node to itself -/
def Tidy (ns : String) (o : DG) : Prop := (∀ n, o.nodeAttr n (ns ++ (":" ++ "token")) = none) ∧ ∀ u k, ¬ o.HasEdge u u k

end Dg
