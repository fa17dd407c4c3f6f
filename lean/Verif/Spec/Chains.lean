/-
Specification vocabulary for pointing chains (C18, C19).
-/
import Verif.Spec.GraphView
import Mathlib.Logic.Relation

namespace Dg
namespace DG

/-- there is a pointing relation from `u` to `v` (in the given layer, if one is given) -/
def PointsTo (g : DG) (layer : Option String) (u v : NodeId) : Prop :=
  ∃ k a, g.edgeAttrs u v k = some a ∧ Dict.find a "edge_type" = some (.atom (.str "points_to")) ∧
    ∀ l, layer = some l → AttrsLayer a (.str l)

/-- consecutive elements of the list are connected by `R`, and it has at least two elements -/
def Follows (R : NodeId → NodeId → Prop) (c : List NodeId) : Prop :=
  2 ≤ c.length ∧ ∀ pre x y post, c = pre ++ x :: y :: post → R x y

/-- the last element has no successor -/
def EndsDead (R : NodeId → NodeId → Prop) (c : List NodeId) : Prop := ∀ x, c.getLast? = some x → ∀ y, ¬ R x y

/-- the first element has no predecessor -/
def StartsFresh (R : NodeId → NodeId → Prop) (c : List NodeId) : Prop := ∀ x, c.head? = some x → ∀ y, ¬ R y x

/-- `R` has no cycle -/
def Acyclic (R : NodeId → NodeId → Prop) : Prop := ∀ x, ¬ Relation.TransGen R x x

end DG
end Dg
