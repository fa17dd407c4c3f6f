/-
Specification of "exactly these new edges were added".
-/
import Verif.Spec.GraphView

namespace Dg
namespace DG

/-- an edge: source, target, key, attributes -/
abbrev Edge := NodeId × NodeId × Key × Attrs

/-- source, target and key of an edge -/
def Edge.triple (e : Edge) : NodeId × NodeId × Key := (e.1, e.2.1, e.2.2.1)

/-- `g'` is `g` plus exactly the edges `new`: none of them existed before, they are pairwise different, they carry the
listed attributes, every other edge is unchanged; nodes are unchanged except that missing endpoints
were created in the graph's own layer; everything else is unchanged. -/
structure AddsEdges (g g' : DG) (new : List Edge) : Prop where
  distinct : (new.map Edge.triple).Nodup
  fresh : ∀ e ∈ new, ¬ g.HasEdge e.1 e.2.1 e.2.2.1
  added : ∀ e ∈ new, g'.edgeAttrs e.1 e.2.1 e.2.2.1 = some e.2.2.2
  others : ∀ u v k, (u, v, k) ∉ new.map Edge.triple → g'.edgeAttrs u v k = g.edgeAttrs u v k
  nodes : ∀ n, g'.nodeAttrs n =
    if ∃ e ∈ new, n = e.1 ∨ n = e.2.1 then some ((g.nodeAttrs n).getD [("layers", .set [.str g.ns])])
    else g.nodeAttrs n
  rest : SameMeta g g'

/-- exactly the edge `(u, v, k)` was set to attributes `a`, creating missing endpoints; nothing else changed -/
structure SetsEdge (g g' : DG) (u v : NodeId) (k : Key) (a : Attrs) : Prop where
  edge : g'.edgeAttrs u v k = some a
  others : ∀ u' v' k', (u', v', k') ≠ (u, v, k) → g'.edgeAttrs u' v' k' = g.edgeAttrs u' v' k'
  nodes : ∀ n, g'.nodeAttrs n =
    if n = u ∨ n = v then some ((g.nodeAttrs n).getD [("layers", .set [.str g.ns])]) else g.nodeAttrs n
  rest : SameMeta g g'

end DG
end Dg
