/-
Specification of "the same graph with other node IDs" (C22-C24).
-/
import Verif.Spec.GraphView

namespace Dg
namespace DG

/-- same attributes; `layers` are compared as sets -/
def SameAttrs (a b : Attrs) : Prop :=
  (∀ x, x ≠ "layers" → Dict.find a x = Dict.find b x) ∧ ∀ l, AttrsLayer a l ↔ AttrsLayer b l

/-- `g'` is `g` with every node `n` called `f n` (different nodes keep different names); keys, attributes and layers of nodes and edges
are the same, nothing is lost and nothing is added. -/
structure Renamed (f : NodeId → NodeId) (g g' : DG) : Prop where
  injective : ∀ n m, g.HasNode n → g.HasNode m → f n = f m → n = m
  nodes : ∀ n a, g.nodeAttrs n = some a → ∃ a', g'.nodeAttrs (f n) = some a' ∧ SameAttrs a a'
  noOtherNodes : ∀ n', g'.HasNode n' → ∃ n, g.HasNode n ∧ f n = n'
  edges : ∀ u v k a, g.edgeAttrs u v k = some a → ∃ a', g'.edgeAttrs (f u) (f v) k = some a' ∧ SameAttrs a a'
  noOtherEdges : ∀ u' v' k, g'.HasEdge u' v' k → ∃ u v, g.HasEdge u v k ∧ f u = u' ∧ f v = v'
  rest : SameMeta g g'

/-- the renaming given by a mapping: labels that are not mapped stay -/
def applyMap (m : Dict NodeId NodeId) (n : NodeId) : NodeId := (Dict.find m n).getD n

/-- every node has a non-empty set of layers (C01 shows when this holds) -/
def NodesLayeredNE (g : DG) : Prop := ∀ n a, g.nodeAttrs n = some a → LayeredNE a

end DG
end Dg
