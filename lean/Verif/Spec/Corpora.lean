/-
Specification of access to the Potsdam Commentary Corpus (C73).
-/
import Verif.Spec.Layered

namespace Dg

/-- a document ID of the corpus: `maz-` and a number -/
def IsDocId (d : List Char) : Prop := ∃ n : List Char, n ≠ [] ∧ (∀ c ∈ n, '0' ≤ c ∧ c ≤ '9') ∧ d = 'm' :: 'a' :: 'z' :: '-' :: n

/-- `f` is the path of a file of the document `d` in the directory `dir`: `dir/d.ext` -/
def FileOf (dir d f : List Char) : Prop := ∃ ext, '.' ∉ ext ∧ '/' ∉ ext ∧ f = dir ++ '/' :: (d ++ '.' :: ext)

/-- a text fits a file name pattern: `*` stands for any text, `?` for any character, other characters for themselves -/
inductive FitsGlob : List Char → List Char → Prop
  | nil : FitsGlob [] []
  | star {p s rest : List Char} : rest <:+ s → FitsGlob p rest → FitsGlob ('*' :: p) s
  | any {p s : List Char} (c : Char) : FitsGlob p s → FitsGlob ('?' :: p) (c :: s)
  | same {p s : List Char} {c : Char} : c ≠ '*' → FitsGlob p s → FitsGlob (c :: p) (c :: s)

/-- strings are ordered by their first different character -/
inductive CharsBelow : List Char → List Char → Prop
  | nil (b : List Char) : CharsBelow [] b
  | first {a b : Char} (as bs : List Char) : a.toNat < b.toNat → CharsBelow (a :: as) (b :: bs)
  | next {a : Char} {as bs : List Char} : CharsBelow as bs → CharsBelow (a :: as) (a :: bs)

end Dg
