/-
Specification of the words that the IDs of a span stand for (C80).
-/
import Verif.Spec.Layered

namespace Dg
namespace DG

/-- the ID `i` stands for a token with the string `w`: it is a node with that string, or else it was renamed (when documents were merged) to such a node -/
def SpanWord (g : DG) (i w : String) : Prop :=
  (g.HasNode (.str i) ∧ g.nodeAttr (.str i) (g.ns ++ (":" ++ "token")) = some (.atom (.str w))) ∨
  (¬ g.HasNode (.str i) ∧ ∃ d r, g.renamed = some d ∧ Dict.find d (.str i) = some r ∧ g.nodeAttr r (g.ns ++ (":" ++ "token")) = some (.atom (.str w)))

/-- the ID `i` stands for nothing: it is no node, and it was not renamed to a node -/
def SpanMissing (g : DG) (i : String) : Prop :=
  ¬ g.HasNode (.str i) ∧ ∀ d r, g.renamed = some d → Dict.find d (.str i) = some r → ¬ g.HasNode r

/-- the ID `i` stands for a node that has no string in the namespace of the document -/
def SpanBlank (g : DG) (i : String) : Prop :=
  (g.HasNode (.str i) ∧ g.nodeAttr (.str i) (g.ns ++ (":" ++ "token")) = none) ∨
  (¬ g.HasNode (.str i) ∧ ∃ d r, g.renamed = some d ∧ Dict.find d (.str i) = some r ∧ g.HasNode r ∧ g.nodeAttr r (g.ns ++ (":" ++ "token")) = none)

end DG
end Dg
