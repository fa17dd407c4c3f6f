/-
Specification of "everything of the merged graph is imported" (C24).
-/
import Verif.Spec.Rename
import Verif.Spec.Edges

namespace Dg
namespace DG

/-- where an edge of the other graph that starts at `u` starts after merging: at the receiving graph's root if it started at the other
graph's root, otherwise at the renamed node -/
def newSource (f : NodeId → NodeId) (g other : DG) (u : NodeId) : NodeId := if u = other.root then g.root else f u

/-- `g'` contains, besides what was in `g`, exactly the other graph with its nodes called `f n`.  `κ u v k` is the key of the copy of the edge `u -> v` with key `k`.

* every non-root node is there with all its attributes and layers, the other root is not;
* every edge is there under a key that was not in use before, with the same attributes, and different edges have different copies;
* edges that did not start at the root have the same layers; edges that did have the layer `g.ns` (this is what the code does, not what the claim asks for);
* every other node and every other edge of `g'` was already in `g`. -/
structure Imported (f : NodeId → NodeId) (κ : NodeId → NodeId → Key → Key) (g other g' : DG) : Prop where
  nodes : ∀ n, other.HasNode n → n ≠ other.root → g'.HasNode (f n) ∧
    (∀ x v, x ≠ "layers" → other.nodeAttr n x = some v → g'.nodeAttr (f n) x = some v) ∧ ∀ l, other.NodeLayer n l → g'.NodeLayer (f n) l
  rootGone : ¬ g'.HasNode other.root
  noOtherNodes : ∀ n', g'.HasNode n' → g.HasNode n' ∨ ∃ n, other.HasNode n ∧ n ≠ other.root ∧ f n = n'
  edges : ∀ u v k a, other.edgeAttrs u v k = some a → ¬ g.HasEdge (newSource f g other u) (f v) (κ u v k) ∧
    ∃ a', g'.edgeAttrs (newSource f g other u) (f v) (κ u v k) = some a' ∧ (∀ x, x ≠ "layers" → Dict.find a' x = Dict.find a x) ∧
      (u ≠ other.root → ∀ l, AttrsLayer a' l ↔ AttrsLayer a l) ∧ (u = other.root → ∀ l, AttrsLayer a' l ↔ l = .str g.ns)
  differentEdges : ∀ u v k u' v' k', other.HasEdge u v k → other.HasEdge u' v' k' →
    (newSource f g other u, f v, κ u v k) = (newSource f g other u', f v', κ u' v' k') → (u, v, k) = (u', v', k')
  noOtherEdges : ∀ u' v' k', g'.HasEdge u' v' k' → g.HasEdge u' v' k' ∨
    ∃ u v k, other.HasEdge u v k ∧ newSource f g other u = u' ∧ f v = v' ∧ κ u v k = k'

end DG
end Dg
