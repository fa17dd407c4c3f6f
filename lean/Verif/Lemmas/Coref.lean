import Verif.Spec.Coref
import Verif.Lemmas.Offsets
import Verif.Lemmas.Chains
import Verif.Lemmas.Forall2

/-! Lemmas about the writers of coreference annotations. -/

namespace Dg
open Dict
namespace DG

theorem markableSpan_ok {g : DG} {ns : String} {m : NodeId} {ts : List NodeId} : g.markableSpan ns m = .ok ts ↔ g.MarksTokens ns m ts := by
  unfold markableSpan MarksTokens
  constructor
  · intro h
    cases h1 : g.getAttr m (qual ns "span") with
    | error e => rw [h1] at h; simp [bind, Except.bind] at h
    | ok v =>
      rw [h1] at h
      simp only [bind, Except.bind] at h
      match v, h with
      | .atom (.str s), h => exact ⟨s, getAttr_ok.1 h1, h⟩
  · rintro ⟨s, h1, h2⟩
    have : g.getAttr m (qual ns "span") = .ok (.atom (.str s)) := getAttr_ok.2 h1
    rw [this]
    exact h2

/-- elements grouped by a key, for keys in a list without duplicates -/
theorem flatMap_filter_perm {α κ : Type} [DecidableEq κ] (key : α → κ) (ks : List κ) (xs : List α) (nd : ks.Nodup) (h : ∀ x ∈ xs, key x ∈ ks) :
    (ks.flatMap (fun k => xs.filter (fun x => decide (key x = k)))).Perm xs := by
  induction ks generalizing xs with
  | nil =>
    cases xs with
    | nil => simp
    | cons x xs => simpa using h x (by simp)
  | cons k ks ih =>
    rw [List.nodup_cons] at nd
    rw [List.flatMap_cons]
    have h2 := ih (xs.filter (fun x => !decide (key x = k))) nd.2 (by
      intro x hx
      rw [List.mem_filter] at hx
      rcases List.mem_cons.1 (h x hx.1) with h3 | h3
      · simp [h3] at hx
      · exact h3)
    have e : ks.flatMap (fun k' => (xs.filter (fun x => !decide (key x = k))).filter (fun x => decide (key x = k'))) =
        ks.flatMap (fun k' => xs.filter (fun x => decide (key x = k'))) := by
      apply List.flatMap_congr
      intro k' hk'
      rw [List.filter_filter]
      apply List.filter_congr
      intro x _
      by_cases hx : key x = k'
      · have : k' ≠ k := by rintro rfl; exact nd.1 hk'
        simp [hx, this]
      · simp [hx]
    rw [e] at h2
    exact (List.Perm.append_left _ h2).trans (List.filter_append_perm _ _)

end DG
end Dg
