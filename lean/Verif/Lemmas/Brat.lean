import Verif.Lemmas.Coref

/-! Lemmas about the brat writer. -/

namespace Dg
open Dict
namespace DG

/-- the state after the markables `ms` -/
structure BratOK (span : NodeId → List NodeId) (text : NodeId → List Char) (ms : List NodeId) (st : BratMarks) : Prop where
  first : ∀ t, (find st.first t).getD [] = ms.filter (fun m => decide ((span m).head? = some t))
  marks : ∀ m ∈ ms, ∃ i, find st.marks m = some (i, text m, (text m).length)
  lt : ∀ m i x, find st.marks m = some (i, x) → i < st.next ∧ 1 ≤ i
  inj : ∀ m m' i x y, find st.marks m = some (i, x) → find st.marks m' = some (i, y) → m = m'
  next : st.next = ms.length + 1
  num : ms.Nodup → ∀ (k : Nat) m, ms[k]? = some m → ∃ x, find st.marks m = some (k + 1, x)
  only : ∀ m x, find st.marks m = some x → m ∈ ms

theorem bratOK_step {g : DG} {ns : String} {span : NodeId → List NodeId} {text : NodeId → List Char} {ms : List NodeId} {st : BratMarks} {m : NodeId}
    (h : BratOK span text ms st) (hs : g.MarksTokens ns m (span m)) (hne : span m ≠ []) (ht : g.tokens2text (span m) = .ok (String.ofList (text m))) :
    ∃ st', g.bratAdd ns st m = .ok st' ∧ BratOK span text (ms ++ [m]) st' := by
  obtain ⟨t, r, hr⟩ := List.exists_cons_of_ne_nil hne
  refine ⟨⟨put st.first t ((find st.first t).getD [] ++ [m]), put st.marks m (st.next, text m, (text m).length), st.next + 1⟩, ?_, ?_⟩
  · unfold bratAdd
    rw [markableSpan_ok.2 hs]
    simp only [bind, Except.bind, ht, String.toList_ofList]
    rw [hr]
    rfl
  · constructor
    · intro t'
      dsimp only
      rw [find_put, List.filter_append, ← h.first t']
      by_cases e : t = t'
      · subst e; simp [hr]
      · simp [hr, e]
    · intro m' hm'
      dsimp only
      rw [find_put]
      by_cases e : m = m'
      · subst e; exact ⟨st.next, by simp⟩
      · rw [if_neg e]
        rw [List.mem_append, List.mem_singleton] at hm'
        exact h.marks m' (hm'.resolve_right (fun x => e x.symm))
    · intro m' i x hf
      dsimp only at hf ⊢
      rw [find_put] at hf
      by_cases e : m = m'
      · rw [if_pos e] at hf
        have : st.next = i := congrArg Prod.fst (Option.some.inj hf)
        have := h.next
        omega
      · rw [if_neg e] at hf
        have := h.lt m' i x hf
        omega
    · intro m1 m2 i x y h1 h2
      dsimp only at h1 h2
      rw [find_put] at h1 h2
      by_cases e1 : m = m1
      · by_cases e2 : m = m2
        · rw [← e1, ← e2]
        · rw [if_pos e1] at h1
          rw [if_neg e2] at h2
          have : st.next = i := congrArg Prod.fst (Option.some.inj h1)
          have := h.lt m2 i y h2
          omega
      · by_cases e2 : m = m2
        · rw [if_neg e1] at h1
          rw [if_pos e2] at h2
          have : st.next = i := congrArg Prod.fst (Option.some.inj h2)
          have := h.lt m1 i x h1
          omega
        · rw [if_neg e1] at h1
          rw [if_neg e2] at h2
          exact h.inj m1 m2 i x y h1 h2
    · simp [h.next]
    · intro nd k m' hk
      dsimp only
      rw [find_put]
      have nd' : ms.Nodup ∧ m ∉ ms := by
        rw [List.nodup_append] at nd
        exact ⟨nd.1, fun hm => nd.2.2 m hm m (by simp) rfl⟩
      by_cases hlt : k < ms.length
      · rw [List.getElem?_append_left hlt] at hk
        have hm' : m ≠ m' := by rintro rfl; exact nd'.2 (List.mem_of_getElem? hk)
        rw [if_neg hm']
        exact h.num nd'.1 k m' hk
      · have h3 := (List.getElem?_eq_some_iff.1 hk).1
        simp only [List.length_append, List.length_singleton] at h3
        have h4 : k = ms.length := by omega
        subst h4
        simp only [List.getElem?_concat_length, Option.some.injEq] at hk
        subst hk
        exact ⟨_, by rw [if_pos rfl, h.next]⟩
    · intro m' x hf
      dsimp only at hf
      rw [find_put] at hf
      by_cases e : m = m'
      · simp [e]
      · rw [if_neg e] at hf
        exact List.mem_append_left _ (h.only m' x hf)

theorem bratFold {g : DG} {ns : String} {span : NodeId → List NodeId} {text : NodeId → List Char} (ms : List NodeId) : ∀ (done : List NodeId) (st : BratMarks),
    BratOK span text done st →
    (∀ m ∈ ms, g.MarksTokens ns m (span m) ∧ span m ≠ [] ∧ g.tokens2text (span m) = .ok (String.ofList (text m))) →
    ∃ st', ms.foldlM (g.bratAdd ns) st = .ok st' ∧ BratOK span text (done ++ ms) st' := by
  induction ms with
  | nil => intro done st h _; exact ⟨st, rfl, by simpa using h⟩
  | cons m ms ih =>
    intro done st h hm
    obtain ⟨h1, h2, h3⟩ := hm m (by simp)
    obtain ⟨st1, e1, ok1⟩ := bratOK_step h h1 h2 h3
    obtain ⟨st2, e2, ok2⟩ := ih (done ++ [m]) st1 ok1 (fun m' hm' => hm m' (List.mem_cons_of_mem _ hm'))
    refine ⟨st2, ?_, by simpa using ok2⟩
    rw [List.foldlM_cons, e1]
    exact e2

theorem bratOK_init (span : NodeId → List NodeId) (text : NodeId → List Char) : BratOK span text [] ⟨[], [], 1⟩ :=
  ⟨by simp [find], by simp, by simp [find], by simp [find], rfl, by simp, by simp [find]⟩

/-- the number of a markable in the final state -/
def numOf (st : BratMarks) (m : NodeId) : Nat := ((find st.marks m).map Prod.fst).getD 0

theorem bratTokens_spec {g : DG} {span : NodeId → List NodeId} {text : NodeId → List Char} {ms : List NodeId} {st : BratMarks} (h : BratOK span text ms st)
    (strs : List String) (ts : List NodeId) : ∀ (pre : List NodeId) (preS suf : List String), g.tokens = pre ++ ts → strs = preS ++ suf → pre.length = preS.length →
    List.Forall₂ g.TokenStr ts suf → g.tokens.Nodup →
    g.bratTokens st (startOf strs pre.length) ts = .ok (ts.flatMap (fun t => (ms.filter (fun m => decide ((span m).head? = some t))).map (fun m =>
      ⟨numOf st m, startOf strs (g.tokens.idxOf t), startOf strs (g.tokens.idxOf t) + (text m).length, text m⟩))) := by
  induction ts with
  | nil => intros; rfl
  | cons t ts ih =>
    intro pre preS suf e1 e2 hl hf nd
    cases hf with
    | @cons _ s _ suf hts hrest =>
      have htok : g.getToken t = .ok (.atom (.str s)) := getAttr_ok.2 hts
      have hidx : g.tokens.idxOf t = pre.length := by
        have h1 : g.tokens[pre.length]? = some t := by rw [e1]; simp
        have h2 := (List.getElem?_eq_some_iff.1 h1)
        obtain ⟨h2, h3⟩ := h2
        have := nd.idxOf_getElem pre.length h2
        rw [h3] at this
        exact this
      have hnext : startOf strs pre.length + s.toList.length + 1 = startOf strs (pre ++ [t]).length := by
        subst e2
        unfold startOf
        rw [hl, show (pre ++ [t]).length = preS.length + 1 by simp [hl]]
        rw [List.take_left', List.take_append, List.take_of_length_le (by omega)]
        · simp; omega
        · rfl
      have hhere : mapE (bratLine st (startOf strs pre.length)) ((find st.first t).getD []) =
          .ok ((ms.filter (fun m => decide ((span m).head? = some t))).map (fun m =>
            ⟨numOf st m, startOf strs (g.tokens.idxOf t), startOf strs (g.tokens.idxOf t) + (text m).length, text m⟩)) := by
        rw [h.first t, mapE_ok, hidx, List.forall₂_map_right_iff, List.forall₂_same]
        intro m hm
        rw [List.mem_filter] at hm
        obtain ⟨i, hi⟩ := h.marks m hm.1
        unfold bratLine numOf
        rw [hi]
        rfl
      have := ih (pre ++ [t]) (preS ++ [s]) suf (by simp [e1]) (by simp [e2]) (by simp [hl]) hrest nd
      rw [bratTokens, htok]
      simp only [bind, Except.bind, pyLen, hhere, hnext, this, List.flatMap_cons]
      rfl

theorem bratRels_spec {span : NodeId → List NodeId} {text : NodeId → List Char} {ms : List NodeId} {st : BratMarks} (h : BratOK span text ms st) (c : List NodeId)
    (hc : ∀ m ∈ c, m ∈ ms) : bratRels st c = .ok ((neighbours c).map (fun p => (numOf st p.1, numOf st p.2))) := by
  have hi : ∀ m ∈ c, bratIndex st m = .ok (numOf st m) := by
    intro m hm
    obtain ⟨i, hi⟩ := h.marks m (hc m hm)
    unfold bratIndex numOf
    rw [hi]; rfl
  induction c with
  | nil => rfl
  | cons a c ih =>
    cases c with
    | nil => rfl
    | cons b r =>
      rw [bratRels, hi a (by simp), hi b (by simp)]
      simp only [bind, Except.bind]
      rw [ih (fun m hm => hc m (List.mem_cons_of_mem _ hm)) (fun m hm => hi m (List.mem_cons_of_mem _ hm))]
      rfl

end DG
end Dg
