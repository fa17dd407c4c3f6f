/-
Specification of line wrapping.
-/
import Verif.Model.Dis

namespace Dg

/-- the characters of a text other than white space -/
def lettersOf (s : List Char) : List Char := s.filter (fun c => !isUniSpace c)

/-- a piece of white space -/
def AllSpace (c : List Char) : Prop := ∀ x ∈ c, isUniSpace x = true

/-- a piece without white space -/
def NoSpace (c : List Char) : Prop := ∀ x ∈ c, isUniSpace x = false

/-- of two adjacent pieces at least one is white space -/
def Alternating : List (List Char) → Prop
  | a :: b :: r => (AllSpace a ∨ AllSpace b) ∧ Alternating (b :: r)
  | _ => True

/-- a way of splitting texts into pieces as textwrap does it: the pieces make up the text, none is empty, each one is white space or has none; words are split only in texts with hyphens -/
structure Chunker (chunk : List Char → List (List Char)) : Prop where
  all : ∀ s, (chunk s).flatten = s
  piece : ∀ s, ∀ c ∈ chunk s, c ≠ [] ∧ (AllSpace c ∨ NoSpace c)
  hyphen : ∀ s, '-' ∉ s → Alternating (chunk s)

/-- no line of the text is longer than `w` characters -/
def LinesFit (w : Nat) (s : List Char) : Prop := ∀ pre l post, s = pre ++ l ++ post → '\n' ∉ l → l.length ≤ w

end Dg
