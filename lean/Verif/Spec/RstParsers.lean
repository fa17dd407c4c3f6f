/-
Specification vocabulary for the output of RST parsers (C35): which tree a parser prints for a rhetorical structure.
-/
import Verif.Model.Text
import Verif.Spec.Rst

namespace Dg

/-- nothing or one line break -/
def OptNewline (s : List Char) : Prop := s = [] ∨ s = ['\n']

/-- all leaves of the tree are strings -/
inductive OnlyStrings : PTree → Prop
  | leaf (s : List Char) : OnlyStrings (.leaf s)
  | node (label : List Char) {kids : List PTree} : (∀ k ∈ kids, OnlyStrings k) → OnlyStrings (.node label kids)

/-- `HildaTree T p`: HILDA prints `p` for the binary structure `T`: relations are labelled `name[N][S]` (a line break after the label is tolerated) -/
inductive HildaTree : Rst → PTree → Prop
  | edu (s : List Char) : HildaTree (.edu s) (.leaf s)
  | rel {name nl : List Char} {x y : Nuc} {l r : Rst} {pl pr : PTree} : '\n' ∉ name → OptNewline nl → HildaTree l pl → HildaTree r pr →
      HildaTree (.rel name [(x, l), (y, r)]) (.node (name ++ ['[', x.char, ']', '[', y.char, ']'] ++ nl) [pl, pr])

/-- StageDP marks sentence and paragraph ends by these tokens -/
def StagedpMarker (tok : List Char) : Prop := tok = ['<', 'P', '>'] ∨ tok = ['<', 'S', '>']

instance (tok : List Char) : Decidable (StagedpMarker tok) := inferInstanceAs (Decidable (_ ∨ _))

/-- `StagedpTree T p`: StageDP prints `p` for the binary structure `T`: the tokens of an EDU are joined by underscores and enclosed by `_!`, relations are labelled
`NS-name` -/
inductive StagedpTree : Rst → PTree → Prop
  | edu (toks : List (List Char)) : (∀ t ∈ toks, '_' ∉ t) →
      StagedpTree (.edu (joinChars [' '] (toks.filter (fun t => ¬ StagedpMarker t))))
        (.node ['E', 'D', 'U'] [.leaf (['_', '!'] ++ joinChars ['_'] toks ++ ['_', '!'])])
  | rel {name nl : List Char} {x y : Nuc} {l r : Rst} {pl pr : PTree} : '\n' ∉ name → OptNewline nl → StagedpTree l pl → StagedpTree r pr →
      StagedpTree (.rel name [(x, l), (y, r)]) (.node ([x.char, y.char, '-'] ++ name ++ nl) [pl, pr])

/-- a line of DPLP's merge file: blank, or tab-separated columns whose third is the token and whose tenth is the number of its EDU -/
inductive MergeLine : Option (List Char × Nat) → List Char → Prop
  | blank {line : List Char} : (∀ c ∈ line, c = ' ' ∨ c = '\t') → MergeLine none line
  | token {cols : List (List Char)} {tok : List Char} {id : Nat} : (∀ c ∈ cols, '\t' ∉ c ∧ '\n' ∉ c ∧ '\r' ∉ c) →
      cols[2]? = some tok → cols[9]? = some (decimal id) → MergeLine (some (tok, id)) (joinChars ['\t'] cols)

/-- `MergeFile toks text`: the merge file has the tokens `toks` (each with the number of its EDU) in this order -/
inductive MergeFile : List (List Char × Nat) → List Char → Prop
  | nil : MergeFile [] []
  | blank {toks : List (List Char × Nat)} {line text : List Char} : MergeLine none line → MergeFile toks text → MergeFile toks (line ++ '\n' :: text)
  | token {toks : List (List Char × Nat)} {t : List Char × Nat} {line text : List Char} : MergeLine (some t) line → MergeFile toks text →
      MergeFile (t :: toks) (line ++ '\n' :: text)

/-- the text of EDU `id`: its tokens in file order, separated by blanks -/
def mergeText (toks : List (List Char × Nat)) (id : Nat) : List Char :=
  joinChars [' '] ((toks.filter (fun t => t.2 = id)).map Prod.fst)

/-- `DplpTree toks T p`: DPLP prints `p` for the binary structure `T`: EDUs are given by their number, relations are labelled `NS-name` -/
inductive DplpTree (toks : List (List Char × Nat)) : Rst → PTree → Prop
  | edu (label : List Char) (id : Nat) : DplpTree toks (.edu (mergeText toks id)) (.node label [.leaf (decimal id)])
  | rel {name nl : List Char} {x y : Nuc} {l r : Rst} {pl pr : PTree} : '\n' ∉ name → OptNewline nl → DplpTree toks l pl → DplpTree toks r pr →
      DplpTree toks (.rel name [(x, l), (y, r)]) (.node ([x.char, y.char, '-'] ++ name ++ nl) [pl, pr])

/-! ### The parser of Heilman and Sagae (C36) -/

/-- label of a nucleus or satellite with the relation it takes part in -/
def hsLabel : Nuc → List Char → List Char
  | .N, rel => ['n', 'u', 'c', 'l', 'e', 'u', 's', ':'] ++ rel
  | .S, rel => ['s', 'a', 't', 'e', 'l', 'l', 'i', 't', 'e', ':'] ++ rel

/-- A relation has (1) two or more nuclei, all labelled with its name, or (2) one nucleus and one satellite, which is labelled with its name, or (3) one nucleus and
several satellites. The parser prints names in lower case, the project capitalises them. -/
def HsRelation (capital : List Char → List Char) (name : List Char) (parts : List (Nuc × List Char × Rst)) : Prop :=
  (2 ≤ parts.length ∧ ∀ p ∈ parts, p.1 = .N ∧ capital p.2.1 = name) ∨
  (∃ r1 t1 r2 t2, capital r2 = name ∧ (parts = [(.N, r1, t1), (.S, r2, t2)] ∨ parts = [(.S, r2, t2), (.N, r1, t1)])) ∨
  ((parts.map Prod.fst).count .N = 1 ∧ 2 ≤ (parts.map Prod.fst).count .S)

mutual
/-- `HsBody capital edus T kids`: the parser prints a node with the children `kids` for the structure `T`; `edus` are the tokens of the EDUs, in the tree they are given
by their index -/
inductive HsBody (capital : List Char → List Char) (edus : List (List (List Char))) : Rst → List PTree → Prop
  | edu {i : Nat} {toks : List (List Char)} : edus[i]? = some toks → HsBody capital edus (.edu (joinChars [' '] toks)) [.node ['t', 'e', 'x', 't'] [.leaf (decimal i)]]
  | rel {name : List Char} {parts : List (Nuc × List Char × Rst)} {kids : List PTree} : HsRelation capital name parts → HsParts capital edus parts kids →
      HsBody capital edus (.rel name (parts.map (fun p => (p.1, p.2.2)))) kids
/-- the nuclei and satellites of a relation -/
inductive HsParts (capital : List Char → List Char) (edus : List (List (List Char))) : List (Nuc × List Char × Rst) → List PTree → Prop
  | nil : HsParts capital edus [] []
  | cons {n : Nuc} {rel : List Char} {t : Rst} {parts : List (Nuc × List Char × Rst)} {body kids : List PTree} : '\n' ∉ rel → HsBody capital edus t body →
      HsParts capital edus parts kids → HsParts capital edus ((n, rel, t) :: parts) (.node (hsLabel n rel) body :: kids)
end

/-- some relation of the structure has several satellites -/
def HasMultisat (T : Rst) : Prop := ∃ name kids, Rst.Part (.rel name kids) T ∧ 2 ≤ (kids.map Prod.fst).count .S

end Dg
