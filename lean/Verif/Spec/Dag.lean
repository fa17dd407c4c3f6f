/-
Paths in a document graph.
-/
import Verif.Spec.Script
import Verif.Spec.Chains
import Mathlib.Logic.Relation
import Mathlib.Data.List.Chain

namespace Dg
namespace DG

/-- there is an edge from `u` to `v` -/
def Arc (g : DG) (u v : NodeId) : Prop := 0 < g.edgeCount u v

/-- there is a path with `k` edges from `u` to `v` -/
inductive Steps (g : DG) : Nat → NodeId → NodeId → Prop
  | refl (u : NodeId) : Steps g 0 u u
  | step {k : Nat} {u v w : NodeId} : g.Arc u v → Steps g k v w → Steps g (k + 1) u w

/-- `p` lists the nodes of a path -/
def IsPath (g : DG) (p : List NodeId) : Prop := p ≠ [] ∧ List.IsChain g.Arc p

end DG
end Dg
