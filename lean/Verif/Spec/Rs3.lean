/-
Specification vocabulary for RST schemata and .rs3 files (C32, C33, C37, C52).
-/
import Verif.Spec.Rst
import Verif.Model.Rs3

namespace Dg

/-- a satellite before (`true`) or after a nucleus -/
def beside (before : Bool) (nuc sat : PTree) : List PTree := if before then [sat, nuc] else [nuc, sat]

/-- `Combined nuc sats t`: `t` results from combining the nucleus with the satellites one after the other.  The first satellite and the nucleus are the two parts of a
relation node that bears the relation of the satellite; this relation is (below a node N) the nucleus for the next satellite, and so on.  A satellite is given by its
relation, its tree and whether it stands before the nucleus. -/
inductive Combined : PTree → List (List Char × PTree × Bool) → PTree → Prop
  | last (nuc : PTree) (name : List Char) (sat : PTree) (before : Bool) : Combined nuc [(name, sat, before)] (.node name (beside before nuc sat))
  | more {nuc : PTree} {name : List Char} {sat : PTree} {before : Bool} {rest : List (List Char × PTree × Bool)} {t : PTree} (hr : rest ≠ []) :
      Combined (.node ['N'] [.node name (beside before nuc sat)]) rest t → Combined nuc ((name, sat, before) :: rest) t

/-- `StartsAt texts leaves p`: the first of these leaves is the text at position `p` and occurs at no earlier position -/
def StartsAt (texts leaves : List (List Char)) (p : Nat) : Prop :=
  ∃ s, leaves.head? = some s ∧ texts[p]? = some s ∧ ∀ j, j < p → texts[j]? ≠ some s

namespace Rst

mutual
/-- number of nodes of the project's tree for a structure: one per EDU, relation and part of a relation -/
def nodes : Rst → Nat
  | .edu _ => 1
  | .rel _ kids => 1 + nodesAll kids
/-- number of nodes of the parts of a relation -/
def nodesAll : List (Nuc × Rst) → Nat
  | [] => 0
  | (_, t) :: r => 1 + nodes t + nodesAll r
end

/-- The number of the (first) nucleus among parts, if the first part has number `m` and the structures in the parts are numbered in preorder -/
def nucNumber (m : Nat) : List (Nuc × Rst) → Nat
  | [] => m + 1
  | (.N, _) :: _ => m + 1
  | (.S, t) :: r => nucNumber (m + 1 + t.nodes) r

/-- The relation of a part to its parent element and the number of the latter: in a relation of a nucleus and a satellite (`rst`), the nucleus is a `span` below the group of the
relation (number `n`) and the satellite is attached to the nucleus (number `nuc`) under the name of the relation.  The parts of other relations are below the group, under the name
of the relation. -/
def rs3Up (rst : Bool) (name : List Char) (n nuc : Nat) (k : Nuc) : List Char × Nat :=
  if rst then (match k with | .N => (['s', 'p', 'a', 'n'], n) | .S => (name, nuc)) else (name, n)

mutual
/-- The .rs3 elements of a structure in preorder.  EDUs become segments, relations groups.  The structure has number `n`, `up` is the relation to and the number of its parent
element.  `isRst` tells which relations are declared as relations of a nucleus and a satellite. -/
def rs3Elems (isRst : List Char → Bool) (n : Nat) (up : Option (List Char × Nat)) : Rst → List Rs3Xml
  | .edu s => [⟨decimal n, up.map (fun u => decimal u.2), up.map Prod.fst, .segment (if s = [] then none else some s)⟩]
  | .rel name kids =>
    ⟨decimal n, up.map (fun u => decimal u.2), up.map Prod.fst,
      .group (some (if .S ∈ kids.map Prod.fst then ['s', 'p', 'a', 'n'] else ['m', 'u', 'l', 't', 'i', 'n', 'u', 'c']))⟩ ::
    rs3Parts isRst name n (nucNumber (n + 1) kids) (n + 1) kids
/-- the elements of the parts of the relation with this name and number; `nuc` is the number of its nucleus, `m` the number of the first of these parts -/
def rs3Parts (isRst : List Char → Bool) (name : List Char) (n nuc m : Nat) : List (Nuc × Rst) → List Rs3Xml
  | [] => []
  | (k, t) :: r =>
    rs3Elems isRst (m + 1) (some (rs3Up (isRst name) name n nuc k)) t ++
    rs3Parts isRst name n nuc (m + 1 + t.nodes) r
end

/-- the elements of a document; the root has number 1, a document of a single EDU has the number 2 -/
def rs3Doc (isRst : List Char → Bool) : Rst → List Rs3Xml
  | .edu s => rs3Elems isRst 2 none (.edu s)
  | t => rs3Elems isRst 1 none t

/-- Every relation joins a nucleus and a satellite or several nuclei; its name is not empty, N or S. -/
def Regular (t : Rst) : Prop := ∀ name kids, Part (.rel name kids) t →
  (kids.map Prod.fst = [.N, .S] ∨ kids.map Prod.fst = [.S, .N] ∨ (2 ≤ kids.length ∧ ∀ k ∈ kids, k.1 = .N)) ∧ name ≠ [] ∧ name ≠ ['N'] ∧ name ≠ ['S']

end Rst

end Dg
