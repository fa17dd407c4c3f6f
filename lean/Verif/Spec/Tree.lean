/-
Specification vocabulary for the tree exports (C30, C31).
-/
import Verif.Spec.GraphView
import Mathlib.Logic.Relation
import Mathlib.Data.List.Forall2

namespace Dg
namespace DG

/-- the edge `u → v` with key `k` is a dominance relation -/
def DominanceEdge (g : DG) (u v : NodeId) (k : Key) : Prop := g.edgeAttr u v k "edge_type" = some (.atom (.str "dominates"))

/-- `u` dominates `v` directly -/
def Dominates (g : DG) (u v : NodeId) : Prop := ∃ k, g.DominanceEdge u v k

/-- `u` is `v` or dominates it, directly or indirectly -/
def Covers (g : DG) (u v : NodeId) : Prop := Relation.ReflTransGen g.Dominates u v

/-- `i` is the index of the first element of `ts` that `m` covers -/
def FirstCovered (g : DG) (ts : List NodeId) (m : NodeId) (i : Nat) : Prop :=
  (∃ t, ts[(i : Nat)]? = some t ∧ g.Covers m t) ∧ ∀ j < i, ∀ t, ts[(j : Nat)]? = some t → ¬ g.Covers m t

/-- the scalar that stands for a node ID in an attribute value -/
def idAtom : NodeId → Atom
  | .int i => .int i
  | .str s => .str s

/-- the tokens that decide about the order of the nodes below `source`: those listed in its 'tokens' attribute, otherwise all tokens -/
def TokensBelow (g : DG) (source : NodeId) (ts : List NodeId) : Prop :=
  if source = g.root ∨ g.nodeAttr source "tokens" = none then ts = g.tokens
  else g.nodeAttr source "tokens" = some (.list (ts.map idAtom))

end DG
end Dg
