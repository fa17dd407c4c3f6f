/-
Specification vocabulary for the layer invariant (C01, C02).
-/
import Verif.Spec.GraphView

namespace Dg
open Dict
namespace DG

/-- Specification of `layers` being well-typed: a set of strings, non-empty if `ne`. -/
def LayeredB (ne : Prop) (a : Attrs) : Prop :=
  ∃ xs, Dict.find a "layers" = some (.set xs) ∧ (∀ x ∈ xs, ∃ s, x = Atom.str s) ∧ (ne → xs ≠ [])

/-- The one use of the API that breaks C01 for nodes: plain IDs passed to `add_nodes_from` together
with a `layers=` keyword argument. -/
def Op.SafeLayers : Op → Prop
  | .addNodesFrom its attr => (∃ n, NodeItem.id n ∈ its) → "layers" ∉ keys attr
  | _ => True

/-- No `(id, {'layers': set()})` tuple is passed to `add_nodes_from`. -/
def Op.NonEmptyLayers : Op → Prop
  | .addNodesFrom its _ => ∀ n d, NodeItem.tup n d ∈ its → find d "layers" ≠ some (.set [])
  | _ => True

/-- all nodes satisfy `LayeredB ne` -/
def NodesLayered (ne : Prop) (g : DG) : Prop := ∀ n a, g.nodeAttrs n = some a → LayeredB ne a

/-- all calls except `remove_node` only grow the graph -/
def Op.Grows : Op → Prop
  | .removeNode _ => False
  | _ => True

/-- `g'` has all nodes and edges of `g` and all edge layers of `g` -/
structure Keeps (g g' : DG) : Prop where
  nodes : ∀ n, g.HasNode n → g'.HasNode n
  edges : ∀ u v k, g.HasEdge u v k → g'.HasEdge u v k
  edgeLayers : ∀ u v k l, g.EdgeLayer u v k l → g'.EdgeLayer u v k l

/-- `g'` has all node layers of `g` -/
def KeepsNodeLayers (g g' : DG) : Prop := ∀ n l, g.NodeLayer n l → g'.NodeLayer n l

end DG
end Dg
