/-
Specification vocabulary for the .dis format (C34): which .dis tree stands for a rhetorical structure.
-/
import Verif.Model.Dis

namespace Dg
namespace Rst

/-- the words of an EDU in .dis notation: the first word begins with `_!` and the last one ends with `_!` -/
def disWords : List (List Char) → List (List Char)
  | [] => []
  | w :: ws => closeLast (['_', '!'] ++ w) ws
where
  /-- `w` and the further words, the last of which gets the closing mark -/
  closeLast (w : List Char) : List (List Char) → List (List Char)
    | [] => [w ++ ['_', '!']]
    | v :: vs => w :: closeLast v vs

/-- the numbers of the EDUs of a part that starts with EDU number `first` -/
def disRange (first count : Nat) : PTree :=
  if count = 1 then .node ['l', 'e', 'a', 'f'] [.leaf (decimal first)]
  else .node ['s', 'p', 'a', 'n'] [.leaf (decimal first), .leaf (decimal (first + count - 1))]

/-- the role of a part in its relation: satellites and the parts of a multinuclear relation carry the name of the relation, the nucleus of a satellite is a `span` -/
def disRole (name : List Char) (nucs : List Nuc) : Nuc → List Char
  | .S => name
  | .N => if .S ∈ nucs then ['s', 'p', 'a', 'n'] else name

/-- label of a nucleus or satellite -/
def disLabel : Nuc → List Char
  | .N => ['N', 'u', 'c', 'l', 'e', 'u', 's']
  | .S => ['S', 'a', 't', 'e', 'l', 'l', 'i', 't', 'e']

mutual
/-- the .dis trees below a node that stands for a structure whose first EDU has number `first` -/
def disBelow (first : Nat) : Rst → List PTree
  | .edu s => [.node ['t', 'e', 'x', 't'] ((disWords (splitWs s)).map PTree.leaf)]
  | .rel name kids => disParts first name (kids.map Prod.fst) kids
/-- the .dis trees of the parts of a relation with the given name and nuclearities -/
def disParts (first : Nat) (name : List Char) (nucs : List Nuc) : List (Nuc × Rst) → List PTree
  | [] => []
  | (n, t) :: r => .node (disLabel n) (disRange first t.edus.length :: .node ['r', 'e', 'l', '2', 'p', 'a', 'r'] [.leaf (disRole name nucs n)] :: disBelow first t) ::
      disParts (first + t.edus.length) name nucs r
end

/-- the .dis tree of a document -/
def disDoc (t : Rst) : PTree :=
  .node ['R', 'o', 'o', 't'] (.node ['s', 'p', 'a', 'n'] [.leaf ['1'], .leaf (decimal t.edus.length)] :: disBelow 1 t)

mutual
/-- the structure with changed EDU texts -/
def mapEdus (f : List Char → List Char) : Rst → Rst
  | .edu s => .edu (f s)
  | .rel name kids => .rel name (mapEdusAll f kids)
/-- the same for the parts of a relation -/
def mapEdusAll (f : List Char → List Char) : List (Nuc × Rst) → List (Nuc × Rst)
  | [] => []
  | (n, t) :: r => (n, mapEdus f t) :: mapEdusAll f r
end

/-- the structure with the white space of the EDU texts normalised: words separated by single blanks -/
def normalWs (t : Rst) : Rst := mapEdus (fun s => joinChars [' '] (splitWs s)) t

/-- A well-formed structure: every relation joins a nucleus and a satellite or several nuclei, no relation is called `N` or `S`, and no EDU is blank. -/
structure WellFormed (t : Rst) : Prop where
  relation : ∀ name kids, Part (.rel name kids) t →
    (kids.map Prod.fst = [.N, .S] ∨ kids.map Prod.fst = [.S, .N] ∨ (2 ≤ kids.length ∧ ∀ k ∈ kids, k.1 = .N)) ∧ name ≠ ['N'] ∧ name ≠ ['S']
  nonblank : ∀ s, Part (.edu s) t → ∃ c ∈ s, isUniSpace c = false

/-- no EDU contains the mark `_!` -/
def NoMarks (t : Rst) : Prop := ∀ s, Part (.edu s) t → ¬ ['_', '!'] <:+: s

end Rst
end Dg
