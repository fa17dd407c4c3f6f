import Verif.Lemmas.Span
import Verif.Spec.Chains

namespace Dg
namespace DG

open Classical in
/-- number of elements of `l` that can be reached by `R` -/
noncomputable def relRank (R : NodeId → NodeId → Prop) (l : List NodeId) (u : NodeId) : Nat := l.countP (fun v => decide (Relation.TransGen R u v))

theorem relRank_lt {R : NodeId → NodeId → Prop} {l : List NodeId} (hac : Acyclic R) {u v : NodeId} (h : R u v) (hv : v ∈ l) :
    relRank R l v < relRank R l u := by
  classical
  unfold relRank
  refine countP_lt (y := v) ?_ hv ?_ ?_
  · intro w hw
    simp only [decide_eq_true_eq] at hw ⊢
    exact Relation.TransGen.head h hw
  · simp only [decide_eq_true_eq]; exact .single h
  · simp only [decide_eq_false_iff_not]; exact hac v

theorem relRank_le (R : NodeId → NodeId → Prop) (l : List NodeId) (u : NodeId) : relRank R l u ≤ l.length := by
  classical
  unfold relRank
  exact List.countP_le_length

end DG
end Dg
