/-
Specification of the content of a graph read from a .dis file, in terms of the rhetorical structure the file stands for.
-/
import Verif.Spec.Dis
import Verif.Spec.RstGraph
import Verif.Model.DisGraph

namespace Dg

/-- a part of a relation in a document: the number of its first EDU, whether it is a nucleus or a satellite, the name under which it is attached (`rel2par`), and the part itself -/
structure DisPart where
  first : Nat
  nuc : Nuc
  role : List Char
  tree : Rst

namespace Rst

/-- the parts of a relation with the given name and nuclearities; `first` is the number of its first EDU -/
def dirParts (first : Nat) (name : List Char) (nucs : List Nuc) : List (Nuc × Rst) → List DisPart
  | [] => []
  | (n, t) :: r => ⟨first, n, disRole name nucs n, t⟩ :: dirParts (first + t.edus.length) name nucs r

/-- the parts of the topmost relation of a document -/
def docParts : Rst → List DisPart
  | .edu _ => []
  | .rel name kids => dirParts 1 name (kids.map Prod.fst) kids

mutual
/-- the parts of a document the reader visits when it reads a part: the part itself and, if it is a relation, what it visits in all of its parts **but the first one** -/
def visitedAt (first : Nat) (n : Nuc) (role : List Char) : Rst → List DisPart
  | .edu s => [⟨first, n, role, .edu s⟩]
  | .rel name kids => ⟨first, n, role, .rel name kids⟩ :: visitedKids first name (kids.map Prod.fst) true kids
/-- the same for the parts of a relation; the first one is skipped -/
def visitedKids (first : Nat) (name : List Char) (nucs : List Nuc) (skip : Bool) : List (Nuc × Rst) → List DisPart
  | [] => []
  | (n, t) :: r => (if skip then [] else visitedAt first n (disRole name nucs n) t) ++ visitedKids (first + t.edus.length) name nucs false r
end

end Rst

namespace DisPart

/-- what the reader visits when it reads a part -/
def visited (p : DisPart) : List DisPart := Rst.visitedAt p.first p.nuc p.role p.tree

/-- number of the last EDU -/
def last (p : DisPart) : Nat := p.first + p.tree.edus.length - 1

/-- the parts of a part -/
def parts (p : DisPart) : List DisPart :=
  match p.tree with
  | .edu _ => []
  | .rel name kids => Rst.dirParts p.first name (kids.map Prod.fst) kids

/-- the node of an EDU is called after its number, that of a relation after the first and the last EDU -/
def name (p : DisPart) : List Char :=
  match p.tree with
  | .edu _ => decimal p.first
  | .rel _ _ => ['s', 'p', 'a', 'n', ':'] ++ decimal p.first ++ ['-'] ++ decimal p.last

/-- the node of a part -/
def node (ns : String) (p : DisPart) : NodeId := .str (qual ns (String.ofList p.name))

/-- the words of a part that is an EDU -/
def words (p : DisPart) : List (List Char) :=
  match p.tree with
  | .edu s => splitWs s
  | .rel _ _ => []

/-- the node of the word number `i` of a part that is an EDU -/
def tokenNode (ns : String) (p : DisPart) (i : Nat) : NodeId := .str (qual ns (String.ofList (decimal p.first ++ ['_'] ++ decimal i)))

/-- a satellite that consists of a nucleus followed by a satellite -/
def Conflict (p : DisPart) : Prop := p.nuc = .S ∧ p.parts.map DisPart.nuc = [.N, .S]

instance (p : DisPart) : Decidable p.Conflict := by unfold Conflict; infer_instance

/-- the edges from the node of a part: from an EDU to its words (without a type), from a relation to its parts but the first one.  They are labelled with the name under which the part itself is attached; edges to nuclei have no type. -/
def edges (ns : String) (tokenize : Bool) (p : DisPart) : List DG.EdgeSpec :=
  (if tokenize then p.words.zipIdx.map (fun w => (⟨p.node ns, p.tokenNode ns w.2, [ns], []⟩ : DG.EdgeSpec)) else []) ++
  p.parts.tail.map (fun c => ⟨p.node ns, c.node ns, [ns], (qual ns "rel_type", DG.strVal p.role) :: (if c.nuc = .S then [("edge_type", .atom (.str "dominates"))] else [])⟩)

end DisPart

namespace Rst

/-- everything the reader visits in a document -/
def visited (t : Rst) : List DisPart := t.docParts.flatMap DisPart.visited

/-- the reader can read the document -/
def Readable (t : Rst) : Prop := ∀ p ∈ t.visited, ¬ p.Conflict

/-- the root node of a document -/
def docNode (ns : String) (t : Rst) : NodeId := .str (qual ns (String.ofList (['s', 'p', 'a', 'n', ':', '1', '-'] ++ decimal t.edus.length)))

/-- the edges of the graph without precedence edges -/
def graphEdges (ns : String) (tokenize : Bool) (t : Rst) : List DG.EdgeSpec :=
  t.docParts.map (fun c => (⟨t.docNode ns, c.node ns, [ns], [("edge_type", .atom (.str "dominates"))]⟩ : DG.EdgeSpec)) ++ t.visited.flatMap (DisPart.edges ns tokenize)

/-- the token nodes with their words -/
def graphTokens (ns : String) (t : Rst) : List (NodeId × List Char) := t.visited.flatMap (fun p => p.words.zipIdx.map (fun w => (p.tokenNode ns w.2, w.1)))

end Rst
end Dg
