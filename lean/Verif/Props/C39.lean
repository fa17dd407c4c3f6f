import Verif.Lemmas.Brackets
import Verif.Props.C38

/-! C39: the export with brackets. -/

namespace Dg
open Dict
namespace DG

/-- **C39**.  For every document with different tokens and every list of chains of markables whose spans (if they have one) begin at or before the token they end at: the export
succeeds; it consists of the tokens in order; before each token there are as many opening brackets as markables begin there, after it as many closing brackets as markables end there;
each markable with a span is closed exactly once (so as many brackets are closed as are opened), and up to every token no more brackets are closed than were opened. -/
theorem c39_brackets_balanced (g : DG) (ns : String) (chains : List (List NodeId)) (strs : List String) (sp : NodeId → Bool) (a b : NodeId → Nat) (ht : g.HasTokens strs)
    (nd : g.tokens.Nodup) (hb : g.BracketSpans ns chains.flatten sp a b) :
    ∃ bs, g.bracketList ns chains = .ok bs ∧ List.Forall₂ (fun x s => x.token = s.toList) bs strs ∧
      (∀ (i : Nat) x, bs[i]? = some x → x.opened = (chains.flatten.filter (fun m => sp m && decide (a m = i))).length ∧
        x.closed.length = (chains.flatten.filter (fun m => sp m && decide (b m = i))).length) ∧
      (bs.flatMap BracketToken.closed).Perm (chains.flatten.filter sp) ∧ (bs.map BracketToken.opened).sum = (bs.map (fun x => x.closed.length)).sum ∧
      (∀ k, ((bs.take k).map (fun x => x.closed.length)).sum ≤ ((bs.take k).map BracketToken.opened).sum) := by
  have hp : (naturalSorted chains.flatten).Perm chains.flatten := pySorted_perm _
  have hb' := hb.perm hp
  obtain ⟨st, e, h1, h2⟩ := bracketFold (naturalSorted chains.flatten) [] ([], []) hb' (by simp [find]) (by simp [find])
  rw [List.nil_append] at h1 h2
  have hin : ∀ m ∈ (naturalSorted chains.flatten).filter sp, a m ≤ b m ∧ a m < g.tokens.length ∧ b m < g.tokens.length := by
    intro m hm
    rw [List.mem_filter] at hm
    obtain ⟨_, _, h⟩ := hb' m hm.1
    obtain ⟨_, _, _, _, _, _, ha, hb2, hle⟩ := h hm.2
    exact ⟨hle, (List.getElem?_eq_some_iff.1 ha).1, (List.getElem?_eq_some_iff.1 hb2).1⟩
  obtain ⟨bs, e1, e2, e3, rest, e4, e5⟩ := bracketTokens_spec nd (fun m hm => (hin m hm).1) h1 h2 g.tokens [] strs [] [] rfl ht (by simp) (by simp)
  have fa : ((naturalSorted chains.flatten).filter sp).filter (fun m => decide (a m < g.tokens.length)) = (naturalSorted chains.flatten).filter sp := by
    rw [List.filter_eq_self]; intro m hm; simpa using (hin m hm).2.1
  have fb : ((naturalSorted chains.flatten).filter sp).filter (fun m => decide (b m < g.tokens.length)) = (naturalSorted chains.flatten).filter sp := by
    rw [List.filter_eq_self]; intro m hm; simpa using (hin m hm).2.2
  rw [fa, List.nil_append] at e4
  rw [fb, List.nil_append] at e5
  have hrest : rest = [] := by
    have := e4.length_eq
    rw [List.length_append] at this
    exact List.length_eq_zero_iff.1 (by omega)
  rw [hrest, List.append_nil] at e4
  have hcnt : ∀ (f : NodeId → Nat) i, (((naturalSorted chains.flatten).filter sp).filter (fun m => decide (f m = i))).length =
      (chains.flatten.filter (fun m => sp m && decide (f m = i))).length := by
    intro f i
    rw [List.filter_filter, (hp.filter _).length_eq]
    congr 1
    apply List.filter_congr
    intro m _
    rw [Bool.and_comm]
  have hper : ∀ (i : Nat) x, bs[i]? = some x → x.opened = (chains.flatten.filter (fun m => sp m && decide (a m = i))).length ∧
        x.closed.length = (chains.flatten.filter (fun m => sp m && decide (b m = i))).length := by
    intro i x hx
    have := e3 i x hx
    rw [hcnt, hcnt] at this
    simpa using this
  -- sums over prefixes
  have hsum : ∀ (f : NodeId → Nat) (v : BracketToken → Nat), (∀ (i : Nat) x, bs[i]? = some x → v x = (chains.flatten.filter (fun m => sp m && decide (f m = i))).length) →
      ∀ k, k ≤ bs.length → ((bs.take k).map v).sum = (chains.flatten.filter (fun m => sp m && decide (f m < k))).length := by
    intro f v hv k
    induction k with
    | zero =>
      intro _
      rw [List.filter_eq_nil_iff.2 (by intro m _; simp)]
      rfl
    | succ k ih =>
      intro hk
      rw [List.take_add_one, List.getElem?_eq_getElem (by omega)]
      rw [List.map_append, List.sum_append, ih (by omega)]
      have h3 := hv k _ (List.getElem?_eq_getElem (by omega))
      have h4 := (filter_lt_succ (chains.flatten.filter sp) f k).length_eq
      rw [List.length_append, List.filter_filter, List.filter_filter, List.filter_filter] at h4
      have hcomm : ∀ P : NodeId → Bool, chains.flatten.filter (fun m => P m && sp m) = chains.flatten.filter (fun m => sp m && P m) := by
        intro P; apply List.filter_congr; intro m _; rw [Bool.and_comm]
      rw [hcomm, hcomm, hcomm] at h4
      simp only [Option.toList_some, List.map_cons, List.map_nil, List.sum_cons, List.sum_nil, Nat.add_zero]
      rw [h3, h4]
  have hblen : bs.length = g.tokens.length := by rw [e2.length_eq]; exact ht.length_eq.symm
  have hle : ∀ k, k ≤ bs.length → ((bs.take k).map (fun x => x.closed.length)).sum ≤ ((bs.take k).map BracketToken.opened).sum := by
    intro k hk
    rw [hsum a BracketToken.opened (fun i x h => (hper i x h).1) k hk, hsum b (fun x => x.closed.length) (fun i x h => (hper i x h).2) k hk]
    rw [← List.countP_eq_length_filter, ← List.countP_eq_length_filter]
    apply List.countP_mono_left
    intro m hm h
    simp only [Bool.and_eq_true, decide_eq_true_eq] at h ⊢
    have := (hin m (List.mem_filter.2 ⟨hp.mem_iff.2 hm, h.1⟩)).1
    exact ⟨h.1, by omega⟩
  refine ⟨bs, ?_, e2, hper, e4.trans (hp.filter _), ?_, ?_⟩
  · unfold bracketList
    rw [e]
    exact e1
  · have h5 := hsum a BracketToken.opened (fun i x h => (hper i x h).1) bs.length (Nat.le_refl _)
    have h6 := hsum b (fun x => x.closed.length) (fun i x h => (hper i x h).2) bs.length (Nat.le_refl _)
    rw [List.take_length] at h5 h6
    rw [h5, h6]
    congr 1
    apply List.filter_congr
    intro m hm
    cases hs : sp m with
    | false => rfl
    | true =>
      have := hin m (List.mem_filter.2 ⟨hp.mem_iff.2 hm, hs⟩)
      rw [hblen]
      simp [this]
  · intro k
    rcases Nat.le_total k bs.length with hk | hk
    · exact hle k hk
    · rw [List.take_of_length_le hk]
      have := hle bs.length (Nat.le_refl _)
      rwa [List.take_length] at this

/-- **C39 (which markable is closed), partial**.  If the spans are nested, the closing brackets after a token belong to exactly the markables whose span ends there.
Missing: spans that are not nested, for which the closing brackets carry the chain of another markable (`c39_fails_for_crossing_spans`, `c39_fails_for_equal_starts`). -/
theorem c39_closes_right_markables_partial (g : DG) (ns : String) (chains : List (List NodeId)) (strs : List String) (sp : NodeId → Bool) (a b : NodeId → Nat)
    (ht : g.HasTokens strs) (nd : g.tokens.Nodup) (hb : g.BracketSpans ns chains.flatten sp a b) (hn : NestedSpans (chains.flatten.filter sp) a b) :
    ∃ bs, g.bracketList ns chains = .ok bs ∧
      ∀ (i : Nat) x, bs[i]? = some x → x.closed.Perm (chains.flatten.filter (fun m => sp m && decide (b m = i))) := by
  have hp : (naturalSorted chains.flatten).Perm chains.flatten := pySorted_perm _
  have hb' := hb.perm hp
  obtain ⟨st, e, h1, h2⟩ := bracketFold (naturalSorted chains.flatten) [] ([], []) hb' (by simp [find]) (by simp [find])
  rw [List.nil_append] at h1 h2
  have hmem : ∀ m, m ∈ (naturalSorted chains.flatten).filter sp → m ∈ chains.flatten.filter sp := fun m hm => (hp.filter sp).mem_iff.1 hm
  have hab : ∀ m ∈ (naturalSorted chains.flatten).filter sp, a m ≤ b m := by
    intro m hm
    rw [List.mem_filter] at hm
    obtain ⟨_, _, h⟩ := hb' m hm.1
    obtain ⟨_, _, _, _, _, _, _, _, hle⟩ := h hm.2
    exact hle
  have hpw : ((naturalSorted chains.flatten).filter sp).Pairwise (fun m n => a m = a n → b n ≤ b m) := by
    have hs : (naturalSorted chains.flatten).Pairwise (fun x y => naturalLe x y = true) := pySorted_sorted naturalLe_total naturalLe_trans _
    refine List.Pairwise.imp_of_mem ?_ (hs.filter sp)
    intro x y hx hy hxy he
    exact (hn x (hmem x hx) y (hmem y hy)).2 he hxy
  obtain ⟨bs, e1, e3⟩ := bracketTokens_nested nd hab h1 h2 (fun m hm n hn' => (hn m (hmem m hm) n (hmem n hn')).1) hpw g.tokens [] strs [] rfl ht (by simp) .nil
  refine ⟨bs, ?_, ?_⟩
  · unfold bracketList
    rw [e]
    exact e1
  · intro i x hx
    refine (e3 i x hx).trans ?_
    rw [List.filter_filter]
    refine (hp.filter _).trans ?_
    rw [List.length_nil, Nat.zero_add]
    simp only [Bool.and_comm]
    exact .refl _

/-- **C39 (chain IDs)**.  The ID written at a closing bracket is the first element of a chain that contains the closed markable. -/
theorem c39_chain_ids (chains : List (List NodeId)) (m : NodeId) (hm : m ∈ chains.flatten) :
    ∃ c ∈ chains, ∃ x, m ∈ c ∧ c.head? = some x ∧ find (markable2chain chains) m = some x ∧ renderClosing (markable2chain chains) m = "]_{".toList ++ x.chars ++ ['}'] := by
  have inner : ∀ (c : List NodeId) (x : NodeId) (d : Dict NodeId NodeId), find (c.foldl (fun d m => put d m x) d) m = if m ∈ c then some x else find d m := by
    intro c x
    induction c with
    | nil => intro d; simp
    | cons y c ih =>
      intro d
      rw [List.foldl_cons, ih, find_put]
      by_cases h1 : m ∈ c
      · simp [h1]
      · by_cases h2 : y = m
        · simp [h2]
        · have h2' : m ≠ y := fun h => h2 h.symm
          simp [h1, h2, h2']
  have key : ∀ (cs : List (List NodeId)) (d : Dict NodeId NodeId), ((∃ c ∈ chains, ∃ x, m ∈ c ∧ c.head? = some x ∧ find d m = some x) ∨ m ∈ cs.flatten) → (∀ c ∈ cs, c ∈ chains) →
      ∃ c ∈ chains, ∃ x, m ∈ c ∧ c.head? = some x ∧ find (cs.foldl (fun d c => match c with
        | [] => d
        | x :: _ => c.foldl (fun d m => put d m x) d) d) m = some x := by
    intro cs
    induction cs with
    | nil =>
      intro d h _
      rcases h with h | h
      · exact h
      · simp at h
    | cons c cs ih =>
      intro d h hsub
      rw [List.foldl_cons]
      apply ih _ _ (fun c' hc' => hsub c' (List.mem_cons_of_mem _ hc'))
      cases c with
      | nil => simpa using h
      | cons x r =>
        by_cases hmc : m ∈ x :: r
        · refine .inl ⟨x :: r, hsub _ (by simp), x, hmc, rfl, ?_⟩
          show find ((x :: r).foldl (fun d m => put d m x) d) m = _
          rw [inner, if_pos hmc]
        · rcases h with ⟨c', hc', y, h1, h2, h3⟩ | h
          · refine .inl ⟨c', hc', y, h1, h2, ?_⟩
            show find ((x :: r).foldl (fun d m => put d m x) d) m = _
            rw [inner, if_neg hmc, h3]
          · rw [List.flatten_cons, List.mem_append] at h
            exact .inr (h.resolve_left hmc)
  obtain ⟨c, hc, x, h1, h2, h3⟩ := key chains [] (.inr hm) (fun c hc => hc)
  refine ⟨c, hc, x, h1, h2, h3, ?_⟩
  unfold renderClosing
  rw [show find (markable2chain chains) m = some x from h3, show "]_{".toList = [']', '_', '{'] by decide]

/-- **C39 (the text)**.  If neither tokens nor closing brackets contain blanks, splitting the output at blanks gives one piece per token, in order: the opening brackets, the token, the closing
brackets with their chain IDs (and an empty piece at the end, since a blank is written after every token). -/
theorem c39_text (fuel : Nat) (g : DG) (layer : Option String) (chains : List (List NodeId)) (bs : List BracketToken) (hc : getPointingChains fuel g layer = .ok chains)
    (hb : g.bracketList (g.corefNamespace layer) chains = .ok bs)
    (h1 : ∀ x ∈ bs, ' ' ∉ x.token) (h2 : ∀ x ∈ bs, ∀ m ∈ x.closed, ' ' ∉ renderClosing (markable2chain chains) m) :
    ∃ out, genBracketedOutput fuel g layer = .ok out ∧
      splitChars ' ' out = bs.map (fun x => List.replicate x.opened '[' ++ x.token ++ x.closed.flatMap (renderClosing (markable2chain chains))) ++ [[]] := by
  refine ⟨bs.flatMap (BracketToken.render (markable2chain chains)), ?_, ?_⟩
  · unfold genBracketedOutput
    rw [hc]
    simp only [bind, Except.bind]
    rw [hb]
    rfl
  · clear hb
    induction bs with
    | nil => rfl
    | cons x bs ih =>
      rw [List.flatMap_cons]
      show splitChars ' ' ((List.replicate x.opened '[' ++ x.token ++ x.closed.flatMap (renderClosing (markable2chain chains)) ++ [' ']) ++ _) = _
      rw [List.append_assoc, List.singleton_append, splitChars_append_sep, ih (fun y hy => h1 y (List.mem_cons_of_mem _ hy)) (fun y hy => h2 y (List.mem_cons_of_mem _ hy))]
      · rfl
      · intro h
        rw [List.mem_append, List.mem_append] at h
        rcases h with (h | h) | h
        · exact absurd (List.eq_of_mem_replicate h) (by decide)
        · exact h1 x (by simp) h
        · obtain ⟨m, hm, hh⟩ := List.mem_flatMap.1 h
          exact h2 x (by simp) m hm hh

/-! ### examples -/

/-- nested spans: 'Die Halle' contains 'Halle', both are taken up later -/
def sampleBrackets : DG := sampleCoref [("m_1", "word_1..word_2"), ("m_2", "word_2"), ("m_3", "word_4"), ("m_4", "word_5")] [("m_3", "m_1"), ("m_4", "m_2")]

example : getPointingChains 9 sampleBrackets none = .ok [[.str "m_3", .str "m_1"], [.str "m_4", .str "m_2"]] ∧
    sampleBrackets.BracketSpans "doc" [.str "m_3", .str "m_1", .str "m_4", .str "m_2"] (fun _ => true)
      (fun m => if m = .str "m_1" then 0 else if m = .str "m_2" then 1 else if m = .str "m_3" then 3 else 4)
      (fun m => if m = .str "m_1" then 1 else if m = .str "m_2" then 1 else if m = .str "m_3" then 3 else 4) ∧
    NestedSpans [.str "m_3", .str "m_1", .str "m_4", .str "m_2"]
      (fun m => if m = .str "m_1" then 0 else if m = .str "m_2" then 1 else if m = .str "m_3" then 3 else 4)
      (fun m => if m = .str "m_1" then 1 else if m = .str "m_2" then 1 else if m = .str "m_3" then 3 else 4) ∧
    genBracketedOutput 9 sampleBrackets none = .ok "[Die [Halle]_{m_4}]_{m_3} ist [sie]_{m_3} [da]_{m_4} ".toList := by
  refine ⟨by decide +kernel, ?_, by unfold NestedSpans; decide +kernel, by decide +kernel⟩
  intro m hm
  simp only [List.mem_cons, List.not_mem_nil, or_false] at hm
  rcases hm with rfl | rfl | rfl | rfl
  · exact ⟨by unfold HasNode; decide, ⟨fun _ => ⟨.atom (.str "word_4"), by decide⟩, fun _ => rfl⟩, fun _ => ⟨[.str "word_4"], _, _, ⟨"word_4", by decide, by decide +kernel⟩, rfl, rfl, by decide, by decide, by decide⟩⟩
  · exact ⟨by unfold HasNode; decide, ⟨fun _ => ⟨.atom (.str "word_1..word_2"), by decide⟩, fun _ => rfl⟩, fun _ => ⟨[.str "word_1", .str "word_2"], _, _, ⟨"word_1..word_2", by decide, by decide +kernel⟩, rfl, rfl, by decide, by decide, by decide⟩⟩
  · exact ⟨by unfold HasNode; decide, ⟨fun _ => ⟨.atom (.str "word_5"), by decide⟩, fun _ => rfl⟩, fun _ => ⟨[.str "word_5"], _, _, ⟨"word_5", by decide, by decide +kernel⟩, rfl, rfl, by decide, by decide, by decide⟩⟩
  · exact ⟨by unfold HasNode; decide, ⟨fun _ => ⟨.atom (.str "word_2"), by decide⟩, fun _ => rfl⟩, fun _ => ⟨[.str "word_2"], _, _, ⟨"word_2", by decide, by decide +kernel⟩, rfl, rfl, by decide, by decide, by decide⟩⟩

/-- **C39 is violated** for spans that overlap: 'Die Halle' belongs to the chain of m_3 and 'Halle ist' to that of m_4, but the closing brackets after 'Halle' and 'ist' carry the chains the other way round. -/
theorem c39_fails_for_crossing_spans :
    genBracketedOutput 9 (sampleCoref [("m_1", "word_1..word_2"), ("m_2", "word_2..word_3"), ("m_3", "word_4"), ("m_4", "word_5")] [("m_3", "m_1"), ("m_4", "m_2")]) none =
      .ok "[Die [Halle]_{m_4} ist]_{m_3} [sie]_{m_3} [da]_{m_4} ".toList := by decide +kernel

/-- **C39 is violated** if a longer span with a greater ID begins at the same token: 'Die' belongs to the chain of m_3, 'Die Halle' to the chain of m_4; the output says the opposite. -/
theorem c39_fails_for_equal_starts :
    genBracketedOutput 9 (sampleCoref [("m_1", "word_1"), ("m_2", "word_1..word_2"), ("m_3", "word_4"), ("m_4", "word_5")] [("m_3", "m_1"), ("m_4", "m_2")]) none =
      .ok "[[Die]_{m_4} Halle]_{m_3} ist [sie]_{m_3} [da]_{m_4} ".toList := by decide +kernel

/-- **C39 is violated** if a span lists its tokens in another order than the document: the export fails with an IndexError. -/
theorem c39_fails_for_reversed_spans :
    genBracketedOutput 9 (sampleCoref [("m_1", "word_2,word_1"), ("m_3", "word_4")] [("m_3", "m_1")]) none = .error .index := by decide +kernel

end DG
end Dg
