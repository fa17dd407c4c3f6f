import Verif.Model.IntLabels
import Verif.Spec.IntLabels
import Verif.Lemmas.Text
import Verif.Lemmas.Span
import Verif.Lemmas.SetAttr
import Verif.Props.C22
import Mathlib.Data.List.Sort

namespace Dg
open Dict

theorem lexLe_iff (as bs : List Char) : lexLe (fun (c d : Char) => decide (c.toNat ≤ d.toNat)) as bs = true ↔
    (∃ r, bs = as ++ r) ∨ ∃ p c d r s, as = p ++ c :: r ∧ bs = p ++ d :: s ∧ c.toNat < d.toNat := by
  induction as generalizing bs with
  | nil => simp [lexLe]
  | cons a as ih =>
    cases bs with
    | nil => simp [lexLe]
    | cons b bs =>
      unfold lexLe
      split
      · rename_i e
        subst e
        rw [ih]
        constructor
        · rintro (⟨r, rfl⟩ | ⟨p, c, d, r, s, rfl, rfl, h⟩)
          · exact Or.inl ⟨r, rfl⟩
          · exact Or.inr ⟨a :: p, c, d, r, s, rfl, rfl, h⟩
        · rintro (⟨r, h⟩ | ⟨p, c, d, r, s, h1, h2, h⟩)
          · exact Or.inl ⟨r, by simpa using h⟩
          · cases p with
            | nil => simp at h1 h2; rw [← h1.1, ← h2.1] at h; omega
            | cons q p => exact Or.inr ⟨p, c, d, r, s, by simp at h1; exact h1.2, by simp at h2; exact h2.2, h⟩
      · rename_i e
        simp only [decide_eq_true_eq]
        have hne : a.toNat ≠ b.toNat := fun h => e (by rw [← Char.ofNat_toNat a, h, Char.ofNat_toNat])
        constructor
        · intro h
          exact Or.inr ⟨[], a, b, as, bs, rfl, rfl, by omega⟩
        · rintro (⟨r, h⟩ | ⟨p, c, d, r, s, h1, h2, h⟩)
          · simp at h; exact absurd h.1.symm e
          · cases p with
            | nil => simp at h1 h2; rw [← h1.1, ← h2.1] at h; omega
            | cons q p => simp at h1 h2; exact absurd (h1.1.trans h2.1.symm) e

theorem pyLe_iff (a b : NodeId) : a.pyLe b = true ↔ IdBefore a b := by
  cases a with
  | int a =>
    cases b with
    | int b => simp only [NodeId.pyLe, decide_eq_true_eq]; exact ⟨.ints, fun h => by cases h; assumption⟩
    | str b => simp only [NodeId.pyLe, true_iff]; exact .intStr
  | str a =>
    cases b with
    | int b => simp only [NodeId.pyLe]; exact ⟨by simp, fun h => by cases h⟩
    | str b => simp only [NodeId.pyLe, lexLe_iff]; exact ⟨.strs, fun h => by cases h; assumption⟩

theorem pyLe_total (a b : NodeId) : a.pyLe b = true ∨ b.pyLe a = true := by
  cases a <;> cases b <;> simp only [NodeId.pyLe, decide_eq_true_eq, true_or, or_true]
  · omega
  · exact lexLe_total charLe_total _ _

theorem pyLe_trans (a b c : NodeId) (h1 : a.pyLe b = true) (h2 : b.pyLe c = true) : a.pyLe c = true := by
  cases a <;> cases b <;> cases c <;> simp only [NodeId.pyLe, decide_eq_true_eq, Bool.false_eq_true] at *
  · omega
  · exact lexLe_trans charLe_trans charLe_antisymm _ _ _ h1 h2

theorem pyLe_antisymm (a b : NodeId) (h1 : a.pyLe b = true) (h2 : b.pyLe a = true) : a = b := by
  cases a <;> cases b <;> simp only [NodeId.pyLe, decide_eq_true_eq, Bool.false_eq_true] at *
  · congr 1; omega
  · congr 1; exact String.toList_inj.1 (lexLe_antisymm charLe_antisymm _ _ h1 h2)

theorem degreeLe_total (a b : Nat × NodeId) : degreeLe a b = true ∨ degreeLe b a = true := by
  unfold degreeLe
  by_cases h : a.1 = b.1
  · simp only [h, if_true]; exact pyLe_total _ _
  · have h' : ¬ b.1 = a.1 := fun e => h e.symm
    simp only [h, h', if_false, decide_eq_true_eq]; omega

theorem degreeLe_iff (a b : Nat × NodeId) : degreeLe a b = true ↔ a.1 < b.1 ∨ (a.1 = b.1 ∧ a.2.pyLe b.2 = true) := by
  unfold degreeLe
  split
  · rename_i h; constructor
    · exact fun h' => Or.inr ⟨h, h'⟩
    · rintro (h' | h')
      · omega
      · exact h'.2
  · rename_i h; simp only [decide_eq_true_eq]; constructor
    · intro h'; left; omega
    · rintro (h' | h')
      · omega
      · exact absurd h'.1 h

theorem degreeLe_trans (a b c : Nat × NodeId) (h1 : degreeLe a b = true) (h2 : degreeLe b c = true) : degreeLe a c = true := by
  rw [degreeLe_iff] at *
  rcases h1 with h1 | ⟨h1, h1'⟩ <;> rcases h2 with h2 | ⟨h2, h2'⟩
  · left; omega
  · left; omega
  · left; omega
  · right; exact ⟨h1.trans h2, pyLe_trans _ _ _ h1' h2'⟩

namespace DG

theorem hasDegree_degree {g : DG} (wf : WF g) (n : NodeId) : g.HasDegree n (g.degree n) := by
  refine ⟨(g.outEdges n).map (fun e => (e.2.1, e.2.2.1)), (g.inEdges n).map (fun e => (e.1, e.2.2.1)), ?_, ?_, ?_, ?_, ?_⟩
  · apply List.Nodup.of_map (fun (p : NodeId × Key) => ((n, p.1, p.2) : NodeId × NodeId × Key))
    rw [List.map_map]
    have := outEdges_triple_nodup wf n
    rw [List.map_congr_left (g := Edge.triple)]
    · exact this
    · rintro ⟨u, v, k, a⟩ he
      rw [mem_outEdges_iff wf] at he
      simp [Edge.triple, he.1]
  · apply List.Nodup.of_map (fun (p : NodeId × Key) => ((p.1, n, p.2) : NodeId × NodeId × Key))
    rw [List.map_map]
    have : ((g.inEdges n).map Edge.triple).Nodup := (List.Sublist.map Edge.triple List.filter_sublist).nodup (edges_triple_nodup wf)
    rw [List.map_congr_left (g := Edge.triple)]
    · exact this
    · rintro ⟨u, v, k, a⟩ he
      unfold inEdges at he
      simp only [List.mem_filter, decide_eq_true_eq] at he
      simp [Edge.triple, he.2]
  · intro v k
    simp only [List.mem_map]
    constructor
    · rintro ⟨⟨u', v', k', a⟩, h, e⟩
      rw [mem_outEdges_iff wf] at h
      simp only [Prod.mk.injEq] at e
      obtain ⟨rfl, rfl⟩ := e
      exact Option.isSome_iff_exists.2 ⟨a, h.2⟩
    · intro h
      obtain ⟨a, ha⟩ := Option.isSome_iff_exists.1 h
      exact ⟨(n, v, k, a), (mem_outEdges_iff wf _ _ _ _ _).2 ⟨rfl, ha⟩, rfl⟩
  · intro v k
    simp only [List.mem_map, inEdges, List.mem_filter, decide_eq_true_eq]
    constructor
    · rintro ⟨⟨u', v', k', a⟩, ⟨h, h2⟩, e⟩
      rw [mem_edges_iff wf] at h
      simp only [Prod.mk.injEq] at e h2
      obtain ⟨rfl, rfl⟩ := e
      subst h2
      exact Option.isSome_iff_exists.2 ⟨a, h⟩
    · intro h
      obtain ⟨a, ha⟩ := Option.isSome_iff_exists.1 h
      exact ⟨(v, n, k, a), ⟨(mem_edges_iff wf _ _ _ _).2 ha, rfl⟩, rfl⟩
  · simp [degree]

theorem hasDegree_iff {g : DG} (wf : WF g) (n : NodeId) (d : Nat) : g.HasDegree n d ↔ d = g.degree n := by
  constructor
  · rintro ⟨o, i, ho, hi, mo, mi, rfl⟩
    obtain ⟨o', i', ho', hi', mo', mi', e⟩ := hasDegree_degree wf n
    rw [e]
    congr 1
    · exact ((List.perm_ext_iff_of_nodup ho ho').2 (fun ⟨v, k⟩ => (mo v k).trans (mo' v k).symm)).length_eq
    · exact ((List.perm_ext_iff_of_nodup hi hi').2 (fun ⟨v, k⟩ => (mi v k).trans (mi' v k).symm)).length_eq
  · rintro rfl; exact hasDegree_degree wf n

theorem degreeBefore_iff {g : DG} (wf : WF g) (a b : NodeId) : g.DegreeBefore a b ↔ degreeLe (g.degree a, a) (g.degree b, b) = true := by
  rw [degreeLe_iff]
  unfold DegreeBefore
  constructor
  · rintro ⟨d, e, h1, h2, h⟩
    rw [hasDegree_iff wf] at h1 h2
    subst h1 h2
    simpa only [pyLe_iff] using h
  · intro h
    exact ⟨_, _, hasDegree_degree wf a, hasDegree_degree wf b, by simpa only [pyLe_iff] using h⟩

theorem degreeBefore_antisymm {g : DG} (wf : WF g) (a b : NodeId) (h1 : g.DegreeBefore a b) (h2 : g.DegreeBefore b a) : a = b := by
  rw [degreeBefore_iff wf, degreeLe_iff] at *
  dsimp only at *
  rcases h1 with h1 | h1 <;> rcases h2 with h2 | h2
  · omega
  · omega
  · omega
  · exact pyLe_antisymm _ _ h1.2 h2.2

theorem degreePairs_spec {g : DG} (wf : WF g) : (g.degreePairs.map Prod.snd).Perm (keys g.nodes) ∧ (g.degreePairs.map Prod.snd).Pairwise g.DegreeBefore := by
  have hp := pySorted_perm (le := degreeLe) ((keys g.nodes).map (fun n => (g.degree n, n)))
  constructor
  · have := hp.map Prod.snd
    rw [List.map_map] at this
    simpa [degreePairs, Function.comp_def] using this
  · rw [List.pairwise_map]
    refine (pySorted_sorted degreeLe_total degreeLe_trans _).imp_of_mem ?_
    intro a b ha hb h
    rw [hp.mem_iff, List.mem_map] at ha hb
    obtain ⟨n, _, rfl⟩ := ha
    obtain ⟨m, _, rfl⟩ := hb
    exact (degreeBefore_iff wf _ _).2 h

theorem listing_iff {g : DG} (wf : WF g) (o : String) (l : List NodeId) : g.nodeOrdering o = .ok l ↔ Listing g o l := by
  unfold nodeOrdering
  constructor
  · intro h
    split at h
    · rename_i e; subst e; cases h; exact .default
    · split at h
      · rename_i e; subst e; cases h
        exact .sorted (pySorted_perm _) ((pySorted_sorted pyLe_total pyLe_trans _).imp (fun h => (pyLe_iff _ _).1 h))
      · split at h
        · rename_i e; subst e; cases h
          exact .increasing (degreePairs_spec wf).1 (degreePairs_spec wf).2
        · split at h
          · rename_i e; subst e; cases h
            refine .decreasing ?_ ?_
            · rw [List.map_reverse]; exact (List.reverse_perm _).trans (degreePairs_spec wf).1
            · rw [List.map_reverse, List.pairwise_reverse]; exact (degreePairs_spec wf).2
          · cases h
  · intro h
    cases h with
    | default => rfl
    | sorted h1 h2 =>
      simp only [String.reduceEq, if_false, if_true, Except.ok.injEq]
      refine List.Perm.eq_of_pairwise (le := IdBefore) ?_ ((pySorted_sorted pyLe_total pyLe_trans _).imp (fun h => (pyLe_iff _ _).1 h)) h2 ((pySorted_perm _).trans h1.symm)
      intro a b _ _ h h'
      exact pyLe_antisymm _ _ ((pyLe_iff _ _).2 h) ((pyLe_iff _ _).2 h')
    | increasing h1 h2 =>
      simp only [String.reduceEq, if_false, if_true, Except.ok.injEq]
      exact List.Perm.eq_of_pairwise (le := g.DegreeBefore) (fun a b _ _ h h' => degreeBefore_antisymm wf a b h h') (degreePairs_spec wf).2 h2 ((degreePairs_spec wf).1.trans h1.symm)
    | decreasing h1 h2 =>
      simp only [String.reduceEq, if_false, if_true, Except.ok.injEq]
      refine List.Perm.eq_of_pairwise (le := fun a b => g.DegreeBefore b a) (fun a b _ _ h h' => degreeBefore_antisymm wf a b h' h) ?_ h2 ?_
      · rw [List.map_reverse, List.pairwise_reverse]; exact (degreePairs_spec wf).2
      · rw [List.map_reverse]; exact ((List.reverse_perm _).trans (degreePairs_spec wf).1).trans h1.symm

theorem Listing.perm {g : DG} {o : String} {l : List NodeId} (h : Listing g o l) : l.Perm (keys g.nodes) := by
  cases h <;> first | exact List.Perm.refl _ | assumption

theorem keys_intMapping (first : Int) (l : List NodeId) : keys (intMapping first l) = l := by
  induction l generalizing first with
  | nil => rfl
  | cons n l ih =>
    have := ih (first + 1)
    simp only [keys, intMapping, List.map_cons] at *
    rw [this]

theorem mem_intMapping (first : Int) (l : List NodeId) (p : NodeId × NodeId) : p ∈ intMapping first l ↔ ∃ i : Nat, l[i]? = some p.1 ∧ p.2 = .int (first + i) := by
  induction l generalizing first with
  | nil => simp [intMapping]
  | cons n l ih =>
    simp only [intMapping, List.mem_cons, ih]
    constructor
    · rintro (rfl | ⟨i, h1, h2⟩)
      · exact ⟨0, by simp, by simp⟩
      · exact ⟨i + 1, by simpa using h1, by rw [h2]; congr 1; push_cast; omega⟩
    · rintro ⟨i, h1, h2⟩
      cases i with
      | zero => left; simp at h1 h2; exact Prod.ext h1.symm h2
      | succ i => right; exact ⟨i, by simpa using h1, by rw [h2]; congr 1; push_cast; omega⟩

theorem mem_vals_intMapping (first : Int) (l : List NodeId) (x : NodeId) : x ∈ vals (intMapping first l) ↔ ∃ i : Nat, i < l.length ∧ x = .int (first + i) := by
  simp only [vals, List.mem_map, mem_intMapping]
  constructor
  · rintro ⟨p, ⟨i, h1, h2⟩, rfl⟩
    exact ⟨i, (List.getElem?_eq_some_iff.1 h1).1, h2⟩
  · rintro ⟨i, h, rfl⟩
    exact ⟨(l[i], .int (first + i)), ⟨i, by simp [h], rfl⟩, rfl⟩

theorem nodup_vals_intMapping (first : Int) (l : List NodeId) : (vals (intMapping first l)).Nodup := by
  induction l generalizing first with
  | nil => simp [intMapping, vals]
  | cons n l ih =>
    have h := ih (first + 1)
    have h2 := mem_vals_intMapping (first + 1) l (.int first)
    simp only [vals, intMapping, List.map_cons, List.nodup_cons] at *
    refine ⟨?_, h⟩
    rw [h2]
    rintro ⟨i, _, e⟩
    simp at e
    omega

theorem find_intMapping {first : Int} {l : List NodeId} (nd : l.Nodup) {i : Nat} {n : NodeId} (h : l[i]? = some n) : find (intMapping first l) n = some (.int (first + i)) :=
  mem_find (by rw [keys_intMapping]; exact nd) ((mem_intMapping first l (n, .int (first + i))).2 ⟨i, h, rfl⟩)

end DG
end Dg
