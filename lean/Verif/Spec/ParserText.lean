/-
Specification of the text of the files of RST parsers (C72).
-/
import Verif.Spec.BracketText
import Verif.Spec.RstParsers

namespace Dg

mutual
/-- the Python expression that creates the tree: `Cls('label', [child, child, …])`, leaves are string literals -/
def PTree.pyExpr (cls : List Char) : PTree → List Char
  | .leaf s => '\'' :: (s ++ ['\''])
  | .none => ['N', 'o', 'n', 'e']
  | .node l ks => cls ++ ('(' :: '\'' :: (l ++ ('\'' :: ',' :: ' ' :: '[' :: (PTree.pyExprs cls ks ++ [']', ')']))))
/-- the children, separated by commas -/
def PTree.pyExprs (cls : List Char) : List PTree → List Char
  | [] => []
  | [k] => PTree.pyExpr cls k
  | k :: k' :: ks => PTree.pyExpr cls k ++ (',' :: ' ' :: PTree.pyExprs cls (k' :: ks))
end

/-- all labels and leaves have the property -/
inductive PTree.AllText (P : List Char → Prop) : PTree → Prop
  | leaf {s : List Char} : P s → AllText P (.leaf s)
  | node {l : List Char} {ks : List PTree} : P l → (∀ k ∈ ks, AllText P k) → AllText P (.node l ks)

/-- a string that can stand in a string literal as it is, and does not contain the word that separates the parts of a DPLP file -/
def PlainLiteral (s : List Char) : Prop := '\'' ∉ s ∧ '\\' ∉ s ∧ '\n' ∉ s ∧ ¬ ['P', 'a', 'r', 'e', 'n', 't', 'e', 'd', 'T', 'r', 'e', 'e'] <:+: s

/-- Python evaluates expressions that create trees to these trees, white space behind them does not matter -/
def EvaluatesTrees (eval : List Char → Except PyErr PTree) : Prop :=
  ∀ t post, t.AllText PlainLiteral → Blank post → eval (t.pyExpr ['T', 'r', 'e', 'e'] ++ post) = .ok t

/-- `s` is a file of the parser StageDP for the structure `T` -/
def StagedpFile (T : Rst) (s : List Char) : Prop := ∃ p, StagedpTree T p ∧ BracketFile p s

end Dg
