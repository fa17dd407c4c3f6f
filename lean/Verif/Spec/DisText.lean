/-
Specification of the text of .dis files.
-/
import Verif.Spec.Dis
import Verif.Model.DisText

namespace Dg

/-- a label or a word that can stand in a .dis file as it is: not empty, no white space, no brackets, no mark `_!` -/
def DisWord (w : List Char) : Prop := w ≠ [] ∧ (∀ c ∈ w, isUniSpace c = false ∧ c ≠ '(' ∧ c ≠ ')') ∧ ¬ ['_', '!'] <:+: w

/-- the words of an EDU: not empty, no white space, no mark `_!`; they may contain brackets -/
def EduWords (ws : List (List Char)) : Prop := ws ≠ [] ∧ ∀ w ∈ ws, w ≠ [] ∧ (∀ c ∈ w, isUniSpace c = false) ∧ ¬ ['_', '!'] <:+: w

/-- white space (of ASCII): blanks, tabs, line breaks, vertical tabs, form feeds, carriage returns -/
def Blank (s : List Char) : Prop := ∀ c ∈ s, c ∈ [' ', '\t', '\n', '\x0b', '\x0c', '\r']

/-- `s` consists of the given words in one line -/
inductive InLine : List (List Char) → List Char → Prop
  | one {w : List Char} : InLine [w] w
  | cons {w sep s : List Char} {ws : List (List Char)} : sep ≠ [] → Blank sep → '\n' ∉ sep → InLine ws s → InLine (w :: ws) (w ++ (sep ++ s))

mutual
/-- `s` is the text of a .dis tree with arbitrary white space between its parts; `edu` says how EDUs are written -/
inductive DisLayout (edu : List (List Char) → List Char → Prop) : PTree → List Char → Prop
  | leaf {w : List Char} : DisWord w → DisLayout edu (.leaf w) w
  | text {ws : List (List Char)} {pre sep s post : List Char} : EduWords ws → edu (Rst.disWords ws) s → Blank pre → sep ≠ [] → Blank sep → Blank post →
      DisLayout edu (.node ['t', 'e', 'x', 't'] ((Rst.disWords ws).map PTree.leaf)) ('(' :: (pre ++ (['t', 'e', 'x', 't'] ++ (sep ++ (s ++ (post ++ [')']))))))
  | node {l pre body post : List Char} {ks : List PTree} : DisWord l → Blank pre → DisLayouts edu ks body → Blank post → DisLayout edu (.node l ks) ('(' :: (pre ++ (l ++ (body ++ (post ++ [')'])))))
/-- the text of the children of a node -/
inductive DisLayouts (edu : List (List Char) → List Char → Prop) : List PTree → List Char → Prop
  | nil : DisLayouts edu [] []
  | cons {sep s body : List Char} {k : PTree} {ks : List PTree} : sep ≠ [] → Blank sep → DisLayout edu k s → DisLayouts edu ks body → DisLayouts edu (k :: ks) (sep ++ (s ++ body))
end

/-- `s` is the content of a .dis file for the structure `T`, in any layout with each EDU in one line -/
def DisContent (T : Rst) (s : List Char) : Prop :=
  ∃ pre body post, s = pre ++ (body ++ post) ∧ (∀ c ∈ pre, isUniSpace c = true) ∧ (∀ c ∈ post, isUniSpace c = true) ∧ DisLayout InLine T.disDoc body

/-- nothing in the text looks like an escaped bracket or like the comments that are removed from two files of the treebank -/
def NoEscape (s : List Char) : Prop := ¬ ['L', 'R', 'B'] <:+: s ∧ ¬ ['R', 'R', 'B'] <:+: s ∧ ¬ [')', '/', '/', 'T', 'T', '_', 'E', 'R', 'R'] <:+: s

/-- the same for the EDUs and names of a structure -/
structure Rst.NoEscapes (T : Rst) : Prop where
  edus : ∀ s, Part (.edu s) T → NoEscape s
  names : ∀ name kids, Part (.rel name kids) T → NoEscape name

/-- the names of relations can stand in a file as they are -/
def Rst.PlainNames (T : Rst) : Prop := ∀ name kids, Part (.rel name kids) T → DisWord name

mutual
/-- the tokens of a tree -/
def PTree.btoks : PTree → List BTok
  | .leaf s => [.word s]
  | .none => []
  | .node l ks => .openB l :: (PTree.btoksAll ks ++ [.closeB])
/-- the tokens of trees -/
def PTree.btoksAll : List PTree → List BTok
  | [] => []
  | k :: ks => PTree.btoks k ++ PTree.btoksAll ks
end

/-- trees without the object None -/
inductive PTree.Real : PTree → Prop
  | leaf {s : List Char} : Real (.leaf s)
  | node {l : List Char} {ks : List PTree} : (∀ k ∈ ks, Real k) → Real (.node l ks)

end Dg
