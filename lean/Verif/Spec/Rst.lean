/-
Specification vocabulary for rhetorical structure trees (C32-C37).
-/
namespace Dg

/-- nuclearity of a part of a relation: nucleus or satellite -/
inductive Nuc
  | N
  | S
  deriving DecidableEq, Repr

/-- the letter of a nuclearity -/
def Nuc.char : Nuc → Char
  | .N => 'N'
  | .S => 'S'

/-- the node label of a nuclearity -/
def Nuc.label (n : Nuc) : List Char := [n.char]

/-- A rhetorical structure: an elementary discourse unit (EDU) with its text, or a relation with its name between nuclei and satellites in text order. -/
inductive Rst
  | edu (text : List Char)
  | rel (name : List Char) (kids : List (Nuc × Rst))

/-- A tree as in nltk: strings (leaves) and labelled trees; `none` is the object None. -/
inductive PTree
  | leaf (s : List Char)
  | none
  | node (label : List Char) (kids : List PTree)

namespace Rst

mutual
/-- the EDUs in text order -/
def edus : Rst → List (List Char)
  | .edu s => [s]
  | .rel _ kids => edusAll kids
/-- the EDUs of the parts of a relation -/
def edusAll : List (Nuc × Rst) → List (List Char)
  | [] => []
  | (_, t) :: r => edus t ++ edusAll r
end

mutual
/-- the relations, top-down and left to right: name and nuclearity of the parts -/
def relations : Rst → List (List Char × List Nuc)
  | .edu _ => []
  | .rel name kids => (name, kids.map Prod.fst) :: relationsAll kids
/-- the relations of the parts of a relation -/
def relationsAll : List (Nuc × Rst) → List (List Char × List Nuc)
  | [] => []
  | (_, t) :: r => relations t ++ relationsAll r
end

mutual
/-- The tree the project uses for a rhetorical structure: an EDU is a leaf, a relation is a node labelled with the name of the relation and has one child per part:
a node labelled N or S whose only child is the tree of the part. -/
def tree : Rst → PTree
  | .edu s => .leaf s
  | .rel name kids => .node name (treeAll kids)
/-- the children of a relation node -/
def treeAll : List (Nuc × Rst) → List PTree
  | [] => []
  | (n, t) :: r => .node n.label [tree t] :: treeAll r
end

/-- The tree of a document: the tree of its structure, a document that consists of only one EDU is a single nucleus -/
def docTree : Rst → PTree
  | .edu s => .node ['N'] [.leaf s]
  | t => tree t

/-- `Part s t`: `s` is `t` or a part of one of its relations -/
inductive Part : Rst → Rst → Prop
  | refl (t : Rst) : Part t t
  | kid {s k : Rst} {n : Nuc} {name : List Char} {kids : List (Nuc × Rst)} : (n, k) ∈ kids → Part s k → Part s (.rel name kids)

end Rst

mutual
/-- the strings at the leaves of a tree from left to right -/
def PTree.leaves : PTree → List (List Char)
  | .leaf s => [s]
  | .none => []
  | .node _ kids => PTree.leavesAll kids
/-- the strings at the leaves of a list of trees -/
def PTree.leavesAll : List PTree → List (List Char)
  | [] => []
  | t :: ts => PTree.leaves t ++ PTree.leavesAll ts
end

end Dg
