/-
Specification of splitting a text at white space.
-/
namespace Dg

/-- `ws` are the words of the text `s`, i.e. the maximal non-empty pieces without separators (characters with the property `p`), from left to right -/
inductive Words (p : Char → Bool) : List Char → List (List Char) → Prop
  | nil : Words p [] []
  | space {c : Char} {s : List Char} {ws : List (List Char)} : p c = true → Words p s ws → Words p (c :: s) ws
  | word {w s : List Char} {ws : List (List Char)} : w ≠ [] → (∀ c ∈ w, p c = false) → (∀ c, s.head? = some c → p c = true) → Words p s ws → Words p (w ++ s) (w :: ws)

/-- `t` is the text `s` without leading and trailing separators (characters with the property `p`) -/
def Trimmed (p : Char → Bool) (s t : List Char) : Prop :=
  ∃ pre post, s = pre ++ t ++ post ∧ (∀ c ∈ pre, p c = true) ∧ (∀ c ∈ post, p c = true) ∧ (∀ c, t.head? = some c → p c = false) ∧ (∀ c, t.getLast? = some c → p c = false)

end Dg
