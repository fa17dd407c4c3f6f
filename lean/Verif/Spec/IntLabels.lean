/-
Specification for convert_node_labels_to_integers (C71): which numbering of the nodes is meant by each `ordering`, and what the numbered graph looks like.
-/
import Verif.Spec.GraphView
import Verif.Model.Merge

namespace Dg

/-- string `a` comes before string `b` in a dictionary (or they are the same): `a` is a beginning of `b`, or at the first difference `a` has the smaller character -/
def StrBefore (a b : String) : Prop :=
  (∃ r, b.toList = a.toList ++ r) ∨ ∃ p c d r s, a.toList = p ++ c :: r ∧ b.toList = p ++ d :: s ∧ c.toNat < d.toNat

/-- the order of node IDs: numbers by value, then strings in dictionary order -/
inductive IdBefore : NodeId → NodeId → Prop
  | ints {a b : Int} : a ≤ b → IdBefore (.int a) (.int b)
  | intStr {a : Int} {b : String} : IdBefore (.int a) (.str b)
  | strs {a b : String} : StrBefore a b → IdBefore (.str a) (.str b)

namespace DG

/-- the node has degree `d`: `d` is the number of its outgoing edges plus the number of its incoming edges -/
def HasDegree (g : DG) (n : NodeId) (d : Nat) : Prop :=
  ∃ (out inc : List (NodeId × Key)), out.Nodup ∧ inc.Nodup ∧ (∀ v k, (v, k) ∈ out ↔ g.HasEdge n v k) ∧ (∀ u k, (u, k) ∈ inc ↔ g.HasEdge u n k) ∧
    d = out.length + inc.length

/-- `a` comes before `b` by degree, nodes of the same degree by ID -/
def DegreeBefore (g : DG) (a b : NodeId) : Prop :=
  ∃ d e, g.HasDegree a d ∧ g.HasDegree b e ∧ (d < e ∨ (d = e ∧ IdBefore a b))

/-- `l` lists the nodes of the graph in the order asked for -/
inductive Listing (g : DG) : String → List NodeId → Prop
  | default : Listing g "default" (Dict.keys g.nodes)
  | sorted {l : List NodeId} : l.Perm (Dict.keys g.nodes) → l.Pairwise IdBefore → Listing g "sorted" l
  | increasing {l : List NodeId} : l.Perm (Dict.keys g.nodes) → l.Pairwise g.DegreeBefore → Listing g "increasing degree" l
  | decreasing {l : List NodeId} : l.Perm (Dict.keys g.nodes) → l.Pairwise (fun a b => g.DegreeBefore b a) → Listing g "decreasing degree" l

/-- the old label as an attribute value -/
inductive LabelValue : NodeId → Val → Prop
  | int (i : Int) : LabelValue (.int i) (.atom (.int i))
  | str (s : String) : LabelValue (.str s) (.atom (.str s))

/-- `h` is the graph `g` with its `i`-th node (in the order of `l`) called `first + i`; the old labels are stored under `attr` -/
structure Numbered (g : DG) (l : List NodeId) (first : Int) (attr : Option String) (h : DG) : Prop where
  nodes : ∀ x, h.HasNode x ↔ ∃ i : Nat, i < l.length ∧ x = .int (first + i)
  attrs : ∀ (i : Nat) n, l[i]? = some n → ∀ x, x ≠ "layers" → some x ≠ attr → h.nodeAttr (.int (first + i)) x = g.nodeAttr n x
  layers : ∀ (i : Nat) n, l[i]? = some n → ∀ x, h.NodeLayer (.int (first + i)) x ↔ g.NodeLayer n x
  labels : ∀ (i : Nat) n a, l[i]? = some n → attr = some a → ∃ v, h.nodeAttr (.int (first + i)) a = some v ∧ LabelValue n v
  edges : ∀ (i j : Nat) u v, l[i]? = some u → l[j]? = some v → ∀ k,
    (h.HasEdge (.int (first + i)) (.int (first + j)) k ↔ g.HasEdge u v k) ∧
    (∀ x, x ≠ "layers" → h.edgeAttr (.int (first + i)) (.int (first + j)) k x = g.edgeAttr u v k x) ∧
    (∀ x, h.EdgeLayer (.int (first + i)) (.int (first + j)) k x ↔ g.EdgeLayer u v k x)
  noOtherEdges : ∀ u v k, h.HasEdge u v k → h.HasNode u ∧ h.HasNode v
  name : h.name = "(" ++ g.name ++ ")_with_int_labels"
  ns : h.ns = g.ns

/-- `l` gives the `i`-th node the number `first + i`: the new label of each node -/
def NewLabel (l : List NodeId) (first : Int) (n : NodeId) (x : Int) : Prop := ∃ i : Nat, l[i]? = some n ∧ x = first + i

end DG
end Dg
