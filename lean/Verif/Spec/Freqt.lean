/-
Specification vocabulary for bracketed tree strings (C30, C51).
-/
import Verif.Spec.Tree

namespace Dg

/-- an ordered tree with labels of type `α` -/
inductive Rose (α : Type)
  | node (label : α) (kids : List (Rose α))

namespace Rose
variable {α : Type}

/-- label of the topmost node -/
def root : Rose α → α
  | .node a _ => a

mutual
/-- all labels, top-down and left to right -/
def labels : Rose α → List α
  | .node a kids => a :: labelsAll kids
/-- the labels of a list of trees -/
def labelsAll : List (Rose α) → List α
  | [] => []
  | t :: ts => labels t ++ labelsAll ts
end

/-- `Sub s t`: `s` is a subtree of `t` -/
inductive Sub : Rose α → Rose α → Prop
  | refl (t : Rose α) : Sub t t
  | kid {s k : Rose α} {a : α} {kids : List (Rose α)} : k ∈ kids → Sub s k → Sub s (.node a kids)

mutual
/-- FREQT notation of a labelled tree: `(label child child ...)` without separators -/
def brackets : Rose (List Char) → List Char
  | .node l kids => '(' :: l ++ bracketsAll kids ++ [')']
/-- FREQT notation of a list of trees, one after the other -/
def bracketsAll : List (Rose (List Char)) → List Char
  | [] => []
  | t :: ts => brackets t ++ bracketsAll ts
end

mutual
/-- Penn Treebank notation of a labelled tree: `(label child child ...)`, parts separated by single blanks -/
def ptb : Rose (List Char) → List Char
  | .node l kids => '(' :: l ++ (if l ≠ [] ∧ kids.length ≠ 0 then [' '] else []) ++ ptbAll kids ++ [')']
/-- Penn Treebank notation of a list of trees -/
def ptbAll : List (Rose (List Char)) → List Char
  | [] => []
  | t :: ts => ptb t ++ (if ts.length ≠ 0 then [' '] else []) ++ ptbAll ts
end

end Rose

/-- no brackets -/
def BracketFree (l : List Char) : Prop := '(' ∉ l ∧ ')' ∉ l

/-- every opening bracket is closed and vice versa -/
inductive Balanced : List Char → Prop
  | nil : Balanced []
  | plain {c : Char} {s : List Char} : c ≠ '(' → c ≠ ')' → Balanced s → Balanced (c :: s)
  | wrap {s t : List Char} : Balanced s → Balanced t → Balanced ('(' :: s ++ ')' :: t)

/-- replaces brackets by -LRB- and -RRB- -/
def withoutBrackets (s : List Char) : List Char :=
  s.flatMap (fun c => if c = '(' then ['-', 'L', 'R', 'B', '-'] else if c = ')' then ['-', 'R', 'R', 'B', '-'] else [c])

namespace DG

/-- the string that stands for a node which is no token: its label, otherwise its ID (if that is a string) -/
def LabelText (g : DG) (n : NodeId) (s : String) : Prop :=
  g.nodeAttr n "label" = some (.atom (.str s)) ∨ (g.nodeAttr n "label" = none ∧ n = .str s)

/-- the POS tag of a token (empty if there is none) -/
def PosText (g : DG) (n : NodeId) (s : String) : Prop :=
  g.nodeAttr n (g.ns ++ (":" ++ "pos")) = some (.atom (.str s)) ∨ (g.nodeAttr n (g.ns ++ (":" ++ "pos")) = none ∧ s = "")

/-- `FreqtTree g pos t l`: the labelled tree `l` shows the tree of nodes `t`: tokens by their strings (below their POS tags if `pos`), other nodes by their labels -/
inductive FreqtTree (g : DG) (pos : Bool) : Rose NodeId → Rose (List Char) → Prop
  | token {n : NodeId} {kids : List (Rose NodeId)} {lkids : List (Rose (List Char))} {tok : String} :
      pos = false → g.nodeAttr n (g.ns ++ (":" ++ "token")) = some (.atom (.str tok)) → List.Forall₂ (FreqtTree g pos) kids lkids →
      FreqtTree g pos (.node n kids) (.node (withoutBrackets tok.toList) lkids)
  | posToken {n : NodeId} {kids : List (Rose NodeId)} {lkids : List (Rose (List Char))} {tok p : String} :
      pos = true → g.nodeAttr n (g.ns ++ (":" ++ "token")) = some (.atom (.str tok)) → g.PosText n p → List.Forall₂ (FreqtTree g pos) kids lkids →
      FreqtTree g pos (.node n kids) (.node (withoutBrackets p.toList) (.node (withoutBrackets tok.toList) [] :: lkids))
  | other {n : NodeId} {kids : List (Rose NodeId)} {lkids : List (Rose (List Char))} {l : String} :
      g.nodeAttr n (g.ns ++ (":" ++ "token")) = none → g.LabelText n l → List.Forall₂ (FreqtTree g pos) kids lkids →
      FreqtTree g pos (.node n kids) (.node (withoutBrackets l.toList) lkids)

/-- the text of a node in Penn Treebank notation: POS tag and token, or the label (empty if there is none) -/
def PtbText (g : DG) (n : NodeId) (s : List Char) : Prop :=
  (∃ tok p, g.nodeAttr n (g.ns ++ (":" ++ "token")) = some (.atom (.str tok)) ∧ g.PosText n p ∧
    s = p.toList ++ (if p = "" then [] else [' ']) ++ tok.toList) ∨
  (g.nodeAttr n (g.ns ++ (":" ++ "token")) = none ∧
    ((∃ l, g.nodeAttr n "label" = some (.atom (.str l)) ∧ s = l.toList) ∨ (g.nodeAttr n "label" = none ∧ s = [])))

/-- the labelled tree shows the tree of nodes in the texts of Penn Treebank notation -/
inductive PtbTree (g : DG) : Rose NodeId → Rose (List Char) → Prop
  | node {n : NodeId} {kids : List (Rose NodeId)} {s : List Char} {lkids : List (Rose (List Char))} :
      g.PtbText n s → List.Forall₂ (PtbTree g) kids lkids → PtbTree g (.node n kids) (.node s lkids)

/-- `t` is the dominance tree below `source`: it contains each node below `source` exactly once, below each node exactly the nodes it dominates, ordered by the
first of the tokens `ts` they cover -/
structure TreeBelow (g : DG) (source : NodeId) (ts : List NodeId) (t : Rose NodeId) : Prop where
  top : t.root = source
  once : t.labels.Nodup
  complete : ∀ n, n ∈ t.labels ↔ g.Covers source n
  kids : ∀ n kids, Rose.Sub (.node n kids) t → ∀ c, c ∈ kids.map Rose.root ↔ c ≠ source ∧ g.Dominates n c
  ordered : ∀ n kids, Rose.Sub (.node n kids) t → (kids.map Rose.root).Pairwise (fun c c' => ∃ i j, g.FirstCovered ts c i ∧ g.FirstCovered ts c' j ∧ i ≤ j)

end DG
end Dg
