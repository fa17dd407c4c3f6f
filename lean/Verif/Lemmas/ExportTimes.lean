import Verif.Lemmas.ExportRows
import Mathlib.Data.List.Perm.Basic
import Mathlib.Tactic.Ring

/-! How often the elements of an ExportXML document are read. -/

namespace Dg

theorem count_flatMap_sum {α β : Type} [BEq β] (f : α → List β) (b : β) (xs : List α) : (xs.flatMap f).count b = (xs.map (fun x => (f x).count b)).sum := by
  induction xs with
  | nil => rfl
  | cons x xs ih => rw [List.flatMap_cons, List.count_append, ih]; rfl

theorem times_count [BEq XRow] [LawfulBEq XRow] (x : XRow) (e : XElem) : ∀ anc : List XElem,
    (((anc, e) :: e.descs anc).flatMap (fun r => r.2.reads r.1)).count x + (anc.takeWhile (fun a => decide (a.tag = "word"))).length * (e.reads anc).count x =
      (((anc, e) :: e.descs anc).flatMap (fun r => List.replicate (XRow.times r) r)).count x := by
  induction e using XElem.ind with
  | h t i a cs ih =>
    intro anc
    rw [List.flatMap_cons, List.flatMap_cons, List.count_append, List.count_append]
    dsimp only
    rw [descs_mk, List.flatMap_assoc, List.flatMap_assoc, count_flatMap_sum, count_flatMap_sum, reads_mk]
    generalize hw : (anc.takeWhile (fun a => decide (a.tag = "word"))).length = w
    have hself : (List.replicate (XRow.times (anc, XElem.mk t i a cs)) ((anc, XElem.mk t i a cs) : XRow)).count x = (1 + w) * [((anc, XElem.mk t i a cs) : XRow)].count x := by
      unfold XRow.times
      rw [hw, List.count_replicate, List.count_singleton]
      by_cases h : (anc, XElem.mk t i a cs) = x <;> simp [h]
    rw [hself]
    by_cases ht : t = "word"
    · rw [if_pos ht]
      have hc : ∀ c ∈ cs, (((XElem.mk t i a cs :: anc, c) :: c.descs (XElem.mk t i a cs :: anc)).flatMap (fun r => r.2.reads r.1)).count x + (1 + w) * (c.reads (XElem.mk t i a cs :: anc)).count x =
          (((XElem.mk t i a cs :: anc, c) :: c.descs (XElem.mk t i a cs :: anc)).flatMap (fun r => List.replicate (XRow.times r) r)).count x := by
        intro c hc
        have := ih c hc (XElem.mk t i a cs :: anc)
        rw [List.takeWhile_cons, if_pos (by simp only [decide_eq_true_eq]; exact ht), List.length_cons, hw] at this
        rw [Nat.add_comm 1 w]; exact this
      have hsum : (cs.map (fun c => (((XElem.mk t i a cs :: anc, c) :: c.descs (XElem.mk t i a cs :: anc)).flatMap (fun r => r.2.reads r.1)).count x)).sum + (1 + w) * (cs.map (fun c => (c.reads (XElem.mk t i a cs :: anc)).count x)).sum =
          (cs.map (fun c => (((XElem.mk t i a cs :: anc, c) :: c.descs (XElem.mk t i a cs :: anc)).flatMap (fun r => List.replicate (XRow.times r) r)).count x)).sum := by
        generalize XElem.mk t i a cs :: anc = A at hc
        clear ih hself
        induction cs with
        | nil => simp
        | cons c cs ihc =>
          have h1 := hc c (by simp)
          have h2 := ihc (fun d hd => hc d (List.mem_cons_of_mem _ hd))
          rw [List.map_cons, List.sum_cons, List.map_cons, List.sum_cons, List.map_cons, List.sum_cons, ← h1, ← h2]
          ring
      rw [← hsum, List.count_cons, count_flatMap_sum, List.count_singleton]
      generalize (if ((anc, XElem.mk t i a cs) : XRow) == x then 1 else 0) = z
      ring
    · rw [if_neg ht]
      have hc : ∀ c ∈ cs, (((XElem.mk t i a cs :: anc, c) :: c.descs (XElem.mk t i a cs :: anc)).flatMap (fun r => r.2.reads r.1)).count x =
          (((XElem.mk t i a cs :: anc, c) :: c.descs (XElem.mk t i a cs :: anc)).flatMap (fun r => List.replicate (XRow.times r) r)).count x := by
        intro c hc
        have := ih c hc (XElem.mk t i a cs :: anc)
        rw [List.takeWhile_cons, if_neg (by simp only [decide_eq_true_eq]; exact ht), List.length_nil, Nat.zero_mul, Nat.add_zero] at this
        exact this
      rw [List.map_congr_left hc]
      ring

/-- each element is read once, and once more for each word in the unbroken chain of words it is part of -/
theorem rows_perm {text : XElem} (ht : text.tag ≠ "word") : text.rows.Perm ((text.descs []).flatMap (fun r => List.replicate (XRow.times r) r)) := by
  letI : DecidableEq XRow := Classical.decEq _
  rw [List.perm_iff_count]
  intro x
  have h := times_count x text []
  rw [List.flatMap_cons, List.flatMap_cons, List.count_append, List.count_append] at h
  have h1 : text.reads [] = [(([], text) : XRow)] := by
    cases text with
    | mk t i a cs =>
      have : t ≠ "word" := ht
      rw [reads_mk, if_neg this]
  have h2 : List.replicate (XRow.times ([], text)) (([], text) : XRow) = [([], text)] := rfl
  rw [h2, h1] at h
  simp only [List.takeWhile_nil, List.length_nil, Nat.zero_mul, Nat.add_zero] at h
  exact Nat.add_left_cancel h

end Dg
