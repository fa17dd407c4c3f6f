/-
Specification of bracketed trees as text, as understood by nltk: `(label child child …)` with arbitrary white space.
-/
import Verif.Spec.DisText

namespace Dg

/-- the characters of labels and leaves: no white space and no brackets -/
def PlainText (w : List Char) : Prop := ∀ c ∈ w, c ∉ [' ', '\t', '\n', '\x0b', '\x0c', '\r'] ∧ c ≠ '(' ∧ c ≠ ')'

/-- the first child is not a leaf -/
def NoLeafFirst : List PTree → Prop
  | .leaf _ :: _ => False
  | _ => True

mutual
/-- `s` is the text of the tree.  A label may be missing if the first child is not a leaf (the label is then empty).  Characters that are white space in Unicode, but not in ASCII, at the beginning of a label do not count. -/
inductive BracketText : PTree → List Char → Prop
  | node {l u pre body : List Char} {ks : List PTree} : Blank pre → PlainText (u ++ l) → (∀ c ∈ u, isUniSpace c = true) → (∀ c, l.head? = some c → isUniSpace c = false) →
      (u ++ l = [] → NoLeafFirst ks) → BracketParts true ks body → BracketText (.node l ks) ('(' :: (pre ++ ((u ++ l) ++ (body ++ [')']))))
/-- `s` is the text of the children of a node, up to the closing bracket; `b`: it follows a word, so that a leaf must be separated by white space -/
inductive BracketParts : Bool → List PTree → List Char → Prop
  | nil {b : Bool} {s : List Char} : Blank s → BracketParts b [] s
  | leaf {b : Bool} {sep w body : List Char} {ks : List PTree} : Blank sep → (b = true → sep ≠ []) → w ≠ [] → PlainText w → BracketParts true ks body →
      BracketParts b (.leaf w :: ks) (sep ++ (w ++ body))
  | node {b : Bool} {sep s body l : List Char} {ks ks' : List PTree} : Blank sep → BracketText (.node l ks') s → BracketParts false ks body →
      BracketParts b (.node l ks' :: ks) (sep ++ (s ++ body))
end

/-- the content of a file with a bracketed tree -/
def BracketFile (t : PTree) (s : List Char) : Prop := ∃ pre body post, s = pre ++ (body ++ post) ∧ Blank pre ∧ Blank post ∧ BracketText t body

end Dg
