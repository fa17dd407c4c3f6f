import Verif.Spec.Conll
import Verif.Lemmas.Chains
import Verif.Lemmas.Offsets
import Verif.Lemmas.Forall2

/-! Lemmas about the CoNLL writer. -/

namespace Dg
open Dict
namespace DG

theorem appendFold {α : Type} (x : α) (c : List NodeId) (nd : c.Nodup) : ∀ (d : Dict NodeId (List α)) (m : NodeId),
    find (c.foldl (fun d m => appendTo d m x) d) m = if m ∈ c then some ((find d m).getD [] ++ [x]) else find d m := by
  induction c with
  | nil => intro d m; simp
  | cons y c ih =>
    intro d m
    rw [List.nodup_cons] at nd
    rw [List.foldl_cons, ih nd.2]
    unfold appendTo
    rw [find_put]
    by_cases h1 : m ∈ c
    · have h2 : y ≠ m := by rintro rfl; exact nd.1 h1
      simp [h1, h2]
    · by_cases h2 : y = m
      · subst h2; simp [h1]
      · have h2' : m ≠ y := fun h => h2 h.symm
        simp [h1, h2, h2']

theorem chainNumbers_spec (cs : List (List NodeId)) (nd : ∀ c ∈ cs, c.Nodup) : ∀ (i : Nat) (d : Dict NodeId (List Nat)) (m : NodeId),
    find (chainNumbers i cs d) m = if m ∈ cs.flatten then
      some ((find d m).getD [] ++ ((List.range cs.length).filter (fun j => decide (∃ c, cs[j]? = some c ∧ m ∈ c))).map (fun j => i + j)) else find d m := by
  induction cs with
  | nil => intro i d m; simp [chainNumbers]
  | cons c cs ih =>
    intro i d m
    rw [chainNumbers, ih (fun c' hc' => nd c' (List.mem_cons_of_mem _ hc')), appendFold i c (nd c (by simp))]
    have hr : (List.range (c :: cs).length).filter (fun j => decide (∃ c', (c :: cs)[j]? = some c' ∧ m ∈ c')) =
        (if m ∈ c then [0] else []) ++ ((List.range cs.length).filter (fun j => decide (∃ c', cs[j]? = some c' ∧ m ∈ c'))).map (· + 1) := by
      rw [List.length_cons, List.range_succ_eq_map, List.filter_cons, List.filter_map]
      have h0 : (decide (∃ c', (c :: cs)[0]? = some c' ∧ m ∈ c')) = decide (m ∈ c) := by simp
      have h1 : ((fun j => decide (∃ c', (c :: cs)[j]? = some c' ∧ m ∈ c')) ∘ Nat.succ) = (fun j => decide (∃ c', cs[j]? = some c' ∧ m ∈ c')) := by
        funext j; simp
      rw [h0, h1]
      by_cases h : m ∈ c <;> simp [h]
    rw [hr, List.flatten_cons, List.map_append, List.map_map]
    have hmap : ((fun j => i + j) ∘ fun x => x + 1) = (fun j => i + 1 + j) := by funext j; simp; omega
    rw [hmap]
    by_cases h1 : m ∈ c
    · by_cases h2 : m ∈ cs.flatten
      · simp [h1, h2]
      · have h3 : (List.range cs.length).filter (fun j => decide (∃ c', cs[j]? = some c' ∧ m ∈ c')) = [] := by
          rw [List.filter_eq_nil_iff]
          intro j _ hj
          obtain ⟨c', hc', hm⟩ := of_decide_eq_true hj
          exact h2 (List.mem_flatten.2 ⟨c', List.mem_of_getElem? hc', hm⟩)
        rw [h3]
        simp [h1, h2]
    · by_cases h2 : m ∈ cs.flatten
      · simp [h1, h2]
      · simp [h1, h2]

/-- the state after the markables `done` -/
structure MapsOK (chains : List (List NodeId)) (span : NodeId → List NodeId) (done : List NodeId) (st : ConllMaps) : Prop where
  tok : ∀ t m, m ∈ (find st.tokMarks t).getD [] ↔ m ∈ done ∧ t ∈ span m
  tokNd : ∀ t, ((find st.tokMarks t).getD []).Nodup
  tokNe : ∀ t ms, find st.tokMarks t = some ms → ms ≠ []
  mark : ∀ m ∈ done, find st.markToks m = some (span m)
  chain : ∀ m, find st.markChains m = if m ∈ chains.flatten ∨ m ∈ done then some (chainIds chains done m) else none
  next : st.nextId = chains.length + (done.filter (fun x => decide (x ∉ chains.flatten))).length

theorem tokFold (m : NodeId) (span : List NodeId) : ∀ (d : Dict NodeId (List NodeId)) (t : NodeId),
    find (span.foldl (fun d t => put d t (setAdd ((find d t).getD []) m)) d) t = if t ∈ span then some (setAdd ((find d t).getD []) m) else find d t := by
  induction span with
  | nil => intro d t; simp
  | cons x span ih =>
    intro d t
    rw [List.foldl_cons, ih, find_put]
    have hidem : ∀ s : List NodeId, setAdd (setAdd s m) m = setAdd s m := by
      intro s
      unfold setAdd
      by_cases h : m ∈ s <;> simp [h]
    by_cases h1 : t ∈ span
    · by_cases h2 : x = t
      · subst h2; simp [h1, hidem]
      · simp [h1, h2]
    · by_cases h2 : x = t
      · subst h2; simp [h1]
      · have h2' : t ≠ x := fun h => h2 h.symm
        simp [h1, h2, h2']

theorem filter_single_neg {chains : List (List NodeId)} {m : NodeId} (hc : m ∈ chains.flatten) : [m].filter (fun x => decide (x ∉ chains.flatten)) = [] := by
  rw [List.filter_cons, decide_eq_false (not_not_intro hc)]; rfl

theorem filter_single_pos {chains : List (List NodeId)} {m : NodeId} (hc : m ∉ chains.flatten) : [m].filter (fun x => decide (x ∉ chains.flatten)) = [m] := by
  rw [List.filter_cons, decide_eq_true hc]; rfl

theorem mapsOK_step {g : DG} {fuel : Nat} {chains : List (List NodeId)} {span : NodeId → List NodeId} {done : List NodeId} {st : ConllMaps} {m : NodeId}
    (h : MapsOK chains span done st) (hs : g.getSpan fuel m = .ok (span m)) (hm : m ∉ done) :
    ∃ st', conllAddMarkable fuel g st m = .ok st' ∧ MapsOK chains span (done ++ [m]) st' := by
  have tk : ∀ t m', m' ∈ (find ((span m).foldl (fun d t => put d t (setAdd ((find d t).getD []) m)) st.tokMarks) t).getD [] ↔ m' ∈ done ++ [m] ∧ t ∈ span m' := by
    intro t m'
    rw [tokFold]
    by_cases h1 : t ∈ span m
    · simp only [h1, if_true, Option.getD_some, mem_setAdd, h.tok, List.mem_append, List.mem_singleton]
      constructor
      · rintro (⟨h2, h3⟩ | rfl)
        · exact ⟨.inl h2, h3⟩
        · exact ⟨.inr rfl, h1⟩
      · rintro ⟨h2 | rfl, h3⟩
        · exact .inl ⟨h2, h3⟩
        · exact .inr rfl
    · simp only [h1, if_false, h.tok, List.mem_append, List.mem_singleton]
      constructor
      · rintro ⟨h2, h3⟩; exact ⟨.inl h2, h3⟩
      · rintro ⟨h2 | rfl, h3⟩
        · exact ⟨h2, h3⟩
        · exact absurd h3 h1
  have tkNd : ∀ t, ((find ((span m).foldl (fun d t => put d t (setAdd ((find d t).getD []) m)) st.tokMarks) t).getD []).Nodup := by
    intro t
    rw [tokFold]
    by_cases h1 : t ∈ span m
    · simp only [h1, if_true, Option.getD_some]; exact nodup_setAdd (h.tokNd t) m
    · simp only [h1, if_false]; exact h.tokNd t
  have tkNe : ∀ t ms, find ((span m).foldl (fun d t => put d t (setAdd ((find d t).getD []) m)) st.tokMarks) t = some ms → ms ≠ [] := by
    intro t ms hms
    rw [tokFold] at hms
    by_cases h1 : t ∈ span m
    · simp only [h1, if_true, Option.some.injEq] at hms
      rw [← hms]
      exact List.ne_nil_of_mem ((mem_setAdd _ m m).2 (.inr rfl))
    · simp only [h1, if_false] at hms
      exact h.tokNe t ms hms
  have mk : ∀ m' ∈ done ++ [m], find (put st.markToks m (span m)) m' = some (span m') := by
    intro m' hm'
    rw [find_put]
    by_cases e : m = m'
    · subst e; simp
    · rw [if_neg e]
      rw [List.mem_append, List.mem_singleton] at hm'
      exact h.mark m' (hm'.resolve_right (fun x => e x.symm))
  have hids : ∀ m', m' ∈ chains.flatten ∨ m' ∈ done → chainIds chains (done ++ [m]) m' = chainIds chains done m' := by
    intro m' hm'
    unfold chainIds
    by_cases hc : m' ∈ chains.flatten
    · simp [hc]
    · have hd := hm'.resolve_left hc
      simp only [hc, if_false, List.filter_append]
      rw [List.idxOf_append_of_mem (List.mem_filter.2 ⟨hd, by simpa using hc⟩)]
  have hadd : ∀ (x : ConllMaps), (if has st.markChains m then (return ⟨(span m).foldl (fun d t => put d t (setAdd ((find d t).getD []) m)) st.tokMarks, put st.markToks m (span m), st.markChains, st.nextId⟩ : Except PyErr ConllMaps)
      else return ⟨(span m).foldl (fun d t => put d t (setAdd ((find d t).getD []) m)) st.tokMarks, put st.markToks m (span m), put st.markChains m [st.nextId], st.nextId + 1⟩) = .ok x →
      conllAddMarkable fuel g st m = .ok x := by
    intro x hx
    unfold conllAddMarkable
    rw [hs]
    exact hx
  by_cases hc : m ∈ chains.flatten
  · refine ⟨_, hadd ⟨(span m).foldl (fun d t => put d t (setAdd ((find d t).getD []) m)) st.tokMarks, put st.markToks m (span m), st.markChains, st.nextId⟩ ?_, tk, tkNd, tkNe, mk, ?_, ?_⟩
    · have : has st.markChains m = true := by
        unfold has; rw [h.chain m, if_pos (.inl hc)]; rfl
      rw [this]; rfl
    · intro m'
      show find st.markChains m' = _
      rw [h.chain m']
      by_cases h1 : m' ∈ chains.flatten ∨ m' ∈ done
      · rw [if_pos h1, if_pos (by rcases h1 with h1 | h1 <;> simp [h1]), hids m' h1]
      · rw [if_neg h1, if_neg]
        intro h2
        rcases h2 with h2 | h2
        · exact h1 (.inl h2)
        · rw [List.mem_append, List.mem_singleton] at h2
          rcases h2 with h2 | rfl
          · exact h1 (.inr h2)
          · exact h1 (.inl hc)
    · show st.nextId = _
      rw [h.next, List.filter_append, filter_single_neg hc, List.append_nil]
  · refine ⟨_, hadd ⟨(span m).foldl (fun d t => put d t (setAdd ((find d t).getD []) m)) st.tokMarks, put st.markToks m (span m), put st.markChains m [st.nextId], st.nextId + 1⟩ ?_, tk, tkNd, tkNe, mk, ?_, ?_⟩
    · have : has st.markChains m = false := by
        unfold has; rw [h.chain m, if_neg (by rintro (h1 | h1); exact hc h1; exact hm h1)]; rfl
      rw [this]; rfl
    · intro m'
      show find (put st.markChains m [st.nextId]) m' = _
      rw [find_put]
      by_cases e : m = m'
      · subst e
        rw [if_pos rfl, if_pos (by simp)]
        unfold chainIds
        rw [if_neg hc, h.next, List.filter_append]
        have : m ∉ done.filter (fun x => decide (x ∉ chains.flatten)) := fun hx => hm (List.mem_filter.1 hx).1
        rw [List.idxOf_append_of_notMem this, filter_single_pos hc, List.idxOf_cons_self, Nat.add_zero]
      · rw [if_neg e, h.chain m']
        by_cases h1 : m' ∈ chains.flatten ∨ m' ∈ done
        · rw [if_pos h1, if_pos (by rcases h1 with h1 | h1 <;> simp [h1]), hids m' h1]
        · rw [if_neg h1, if_neg]
          intro h2
          rcases h2 with h2 | h2
          · exact h1 (.inl h2)
          · rw [List.mem_append, List.mem_singleton] at h2
            rcases h2 with h2 | rfl
            · exact h1 (.inr h2)
            · exact e rfl
    · show st.nextId + 1 = _
      rw [h.next, List.filter_append, filter_single_pos hc, List.length_append, List.length_singleton]
      omega

theorem mapsFold {g : DG} {fuel : Nat} {chains : List (List NodeId)} {span : NodeId → List NodeId} (ms : List NodeId) : ∀ (done : List NodeId) (st : ConllMaps),
    MapsOK chains span done st → (∀ m ∈ ms, g.getSpan fuel m = .ok (span m)) → (done ++ ms).Nodup →
    ∃ st', ms.foldlM (conllAddMarkable fuel g) st = .ok st' ∧ MapsOK chains span (done ++ ms) st' := by
  induction ms with
  | nil => intro done st h _ _; exact ⟨st, rfl, by simpa using h⟩
  | cons m ms ih =>
    intro done st h hs nd
    have hm : m ∉ done := by
      intro hm
      rw [List.nodup_append] at nd
      exact nd.2.2 m hm m (by simp) rfl
    obtain ⟨st1, e1, ok1⟩ := mapsOK_step h (hs m (by simp)) hm
    obtain ⟨st2, e2, ok2⟩ := ih (done ++ [m]) st1 ok1 (fun m' hm' => hs m' (List.mem_cons_of_mem _ hm')) (by simpa using nd)
    refine ⟨st2, ?_, by simpa using ok2⟩
    rw [List.foldlM_cons, e1]
    exact e2

theorem mapsOK_init (chains : List (List NodeId)) (nd : ∀ c ∈ chains, c.Nodup) (span : NodeId → List NodeId) :
    MapsOK chains span [] ⟨[], [], chainNumbers 0 chains [], chains.length⟩ := by
  refine ⟨by simp [find], by simp [find], by simp [find], by simp, ?_, by simp⟩
  intro m
  show find (chainNumbers 0 chains []) m = _
  rw [chainNumbers_spec chains nd]
  by_cases h : m ∈ chains.flatten
  · rw [if_pos h, if_pos (.inl h)]
    unfold chainIds
    rw [if_pos h]
    simp [find]
  · rw [if_neg h, if_neg (by simpa using h)]
    rfl

theorem conllCoref_spec {chains : List (List NodeId)} {span : NodeId → List NodeId} {ms : List NodeId} {st : ConllMaps} (h : MapsOK chains span ms st)
    (hnd : ∀ m ∈ ms, (span m).Nodup) (t : NodeId) : ∃ c, conllCoref st t = .ok c ∧ CorefColumn chains ms span t c := by
  unfold conllCoref
  cases hf : find st.tokMarks t with
  | none =>
    refine ⟨none, rfl, ?_⟩
    intro m hm ht
    have := (h.tok t m).2 ⟨hm, ht⟩
    rw [hf] at this
    simp at this
  | some qs =>
    have hq : ∀ m, m ∈ qs ↔ m ∈ ms ∧ t ∈ span m := by
      intro m
      have := h.tok t m
      rw [hf] at this
      exact this
    have hqn : qs.Nodup := by
      have := h.tokNd t
      rw [hf] at this
      exact this
    have hent : ∀ m ∈ qs, conllEntries st t m = .ok ((chainIds chains ms m).map (fun c => ⟨m, c, decide ((span m).idxOf t = 0), decide ((span m).idxOf t + 1 = (span m).length)⟩)) := by
      intro m hm
      obtain ⟨hm1, hm2⟩ := (hq m).1 hm
      unfold conllEntries
      rw [h.chain m, if_pos (.inr hm1), mapE_ok, Option.getD_some, List.forall₂_map_right_iff, List.forall₂_same]
      intro c _
      unfold conllEntry
      rw [h.mark m hm1]
      simp only [Option.getD_some]
      rw [if_pos hm2]
    have hall : mapE (conllEntries st t) qs = .ok (qs.map (fun m => (chainIds chains ms m).map (fun c => ⟨m, c, decide ((span m).idxOf t = 0), decide ((span m).idxOf t + 1 = (span m).length)⟩))) := by
      rw [mapE_ok, List.forall₂_map_right_iff, List.forall₂_same]
      exact hent
    refine ⟨some (qs.flatMap (fun m => (chainIds chains ms m).map (fun c => ⟨m, c, decide ((span m).idxOf t = 0), decide ((span m).idxOf t + 1 = (span m).length)⟩))), ?_, ?_, ?_, ?_⟩
    · simp only
      rw [hall]
      rfl
    · obtain ⟨m, hm⟩ := List.exists_mem_of_ne_nil _ (h.tokNe t qs hf)
      exact ⟨m, (hq m).1 hm⟩
    · rw [List.nodup_flatMap]
      constructor
      · intro m _
        apply List.Nodup.map
        · intro a b hab
          exact (ConllEntry.mk.inj hab).2.1
        · unfold chainIds
          split
          · exact List.Nodup.filter _ List.nodup_range
          · simp
      · refine List.Pairwise.imp_of_mem ?_ hqn
        intro a b _ _ hne x hx hy
        obtain ⟨c, _, rfl⟩ := List.mem_map.1 hx
        obtain ⟨c', _, h2⟩ := List.mem_map.1 hy
        exact hne (ConllEntry.mk.inj h2).1.symm
    · intro e
      rw [List.mem_flatMap]
      have hopen : ∀ m, t ∈ span m → ((span m).idxOf t = 0 ↔ (span m).head? = some t) := by
        intro m hm
        cases hsp : span m with
        | nil => rw [hsp] at hm; simp at hm
        | cons a r =>
          rw [List.head?_cons, Option.some.injEq, List.idxOf_cons]
          by_cases hat : a = t
          · subst hat; simp
          · have hb : (a == t) = false := by simpa using hat
            rw [hb]
            constructor
            · intro h0; exact absurd h0 (Nat.succ_ne_zero _)
            · intro h0; exact absurd h0 hat
      have hclose : ∀ m ∈ ms, t ∈ span m → ((span m).idxOf t + 1 = (span m).length ↔ (span m).getLast? = some t) := by
        intro m hms hm
        have hlt := List.idxOf_lt_length_of_mem hm
        rw [List.getLast?_eq_getElem?]
        have hget := List.getElem?_idxOf hm
        constructor
        · intro he
          rw [← he, Nat.add_sub_cancel]
          exact hget
        · intro he
          have := (List.getElem?_inj hlt (hnd m hms)).1 (hget.trans he.symm)
          omega
      constructor
      · rintro ⟨m, hm, hx⟩
        obtain ⟨c, hc, rfl⟩ := List.mem_map.1 hx
        obtain ⟨hm1, hm2⟩ := (hq m).1 hm
        exact ⟨hm1, hm2, hc, by simpa using hopen m hm2, by simpa using hclose m hm1 hm2⟩
      · rintro ⟨h1, h2, h3, h4, h5⟩
        refine ⟨e.markable, (hq _).2 ⟨h1, h2⟩, List.mem_map.2 ⟨e.chain, h3, ?_⟩⟩
        obtain ⟨em, ec, eo, el⟩ := e
        dsimp only at h1 h2 h3 h4 h5 ⊢
        rw [← hopen em h2] at h4
        rw [← hclose em h1 h2] at h5
        congr 1
        · rw [Bool.eq_iff_iff, h4]; simp
        · rw [Bool.eq_iff_iff, h5]; simp

theorem conllRowsFrom_spec {g : DG} {st : ConllMaps} {P : NodeId → Option (List ConllEntry) → Prop} (hP : ∀ t, ∃ c, conllCoref st t = .ok c ∧ P t c) (ts : List NodeId) :
    ∀ (i : Nat) (strs : List String), List.Forall₂ g.TokenStr ts strs →
    ∃ rs, g.conllRowsFrom st i ts = .ok rs ∧ rs.map ConllRow.number = List.range' i ts.length ∧ rs.map ConllRow.token = strs.map String.toList ∧
      List.Forall₂ (fun t r => P t r.coref) ts rs := by
  induction ts with
  | nil => intro i strs h; cases h; exact ⟨[], rfl, rfl, rfl, .nil⟩
  | cons t ts ih =>
    intro i strs h
    cases h with
    | @cons _ s _ strs h1 h2 =>
      obtain ⟨rs, e1, e2, e3, e4⟩ := ih (i + 1) strs h2
      obtain ⟨c, hc, hp⟩ := hP t
      refine ⟨⟨i, s.toList, c⟩ :: rs, ?_, ?_, ?_, .cons hp e4⟩
      · rw [conllRowsFrom]
        have : g.conllRow st i t = .ok ⟨i, s.toList, c⟩ := by
          unfold conllRow
          rw [hc, show g.getToken t = .ok (.atom (.str s)) from getAttr_ok.2 h1]
          rfl
        rw [this]
        simp only [bind, Except.bind]
        rw [e1]
        rfl
      · rw [List.map_cons, e2, List.length_cons, List.range'_succ]
      · rw [List.map_cons, e3]; rfl

theorem sentenceTokens_ok {g : DG} {s : NodeId} {ts : List NodeId} (h : g.SentenceTokens s ts) : g.sentenceTokens s = .ok ts := by
  unfold sentenceTokens
  rw [getAttr_ok.2 h]
  show mapE rowTokenId (ts.map tokenAtom) = _
  rw [mapE_ok, List.forall₂_map_left_iff, List.forall₂_same]
  intro t _
  cases t <;> rfl

end DG
end Dg
