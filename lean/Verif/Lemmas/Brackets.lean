import Verif.Lemmas.Coref

/-! Lemmas about the bracket writer. -/

namespace Dg
open Dict
namespace DG

theorem BracketSpans.perm {g : DG} {ns : String} {ms ms' : List NodeId} {sp : NodeId → Bool} {a b : NodeId → Nat} (h : BracketSpans g ns ms sp a b) (hp : ms'.Perm ms) :
    BracketSpans g ns ms' sp a b := fun m hm => h m (hp.mem_iff.1 hm)

theorem bracketFold {g : DG} {ns : String} {sp : NodeId → Bool} {a b : NodeId → Nat} (ms : List NodeId) : ∀ (done : List NodeId) (st : Dict NodeId (List NodeId) × Dict NodeId (List NodeId)),
    BracketSpans g ns ms sp a b →
    (∀ t, (find st.1 t).getD [] = done.filter (fun m => decide (g.tokens[a m]? = some t))) →
    (∀ t, (find st.2 t).getD [] = done.filter (fun m => decide (g.tokens[b m]? = some t))) →
    ∃ st', ms.foldlM (g.bracketAdd ns) st = .ok st' ∧
      (∀ t, (find st'.1 t).getD [] = (done ++ ms.filter sp).filter (fun m => decide (g.tokens[a m]? = some t))) ∧
      (∀ t, (find st'.2 t).getD [] = (done ++ ms.filter sp).filter (fun m => decide (g.tokens[b m]? = some t))) := by
  induction ms with
  | nil => intro done st _ h1 h2; exact ⟨st, rfl, by simpa using h1, by simpa using h2⟩
  | cons m ms ih =>
    intro done st hb h1 h2
    obtain ⟨hn, hs, hsp⟩ := hb m (by simp)
    have hb' : BracketSpans g ns ms sp a b := fun m' hm' => hb m' (List.mem_cons_of_mem _ hm')
    obtain ⟨at', hat⟩ := (mem_keys_iff _ _).1 hn
    rw [List.foldlM_cons]
    cases hm : sp m with
    | false =>
      obtain ⟨st', e, r1, r2⟩ := ih done st hb' h1 h2
      refine ⟨st', ?_, ?_, ?_⟩
      · have : g.bracketAdd ns st m = .ok st := by
          unfold bracketAdd
          rw [hat]
          simp only
          rw [if_neg]
          intro hh
          rw [has_iff, mem_keys_iff] at hh
          obtain ⟨v, hv⟩ := hh
          have : sp m = true := hs.2 ⟨v, by unfold nodeAttr nodeAttrs; rw [hat]; exact hv⟩
          rw [hm] at this
          exact absurd this (by decide)
        rw [this]
        exact e
      · simpa [List.filter_cons, hm] using r1
      · simpa [List.filter_cons, hm] using r2
    | true =>
      obtain ⟨ts, t, u, hts, hh, hl, ha, hb2, _⟩ := hsp hm
      obtain ⟨st', e, r1, r2⟩ := ih (done ++ [m]) (put st.1 t ((find st.1 t).getD [] ++ [m]), put st.2 u ((find st.2 u).getD [] ++ [m])) hb' (by
        intro t'
        dsimp only
        rw [find_put, List.filter_append, ← h1 t']
        by_cases e : t = t'
        · subst e; simp [ha]
        · have : g.tokens[a m]? ≠ some t' := by rw [ha]; simpa using e
          simp [e, this]) (by
        intro t'
        dsimp only
        rw [find_put, List.filter_append, ← h2 t']
        by_cases e : u = t'
        · subst e; simp [hb2]
        · have : g.tokens[b m]? ≠ some t' := by rw [hb2]; simpa using e
          simp [e, this])
      refine ⟨st', ?_, ?_, ?_⟩
      · have : g.bracketAdd ns st m = .ok (put st.1 t ((find st.1 t).getD [] ++ [m]), put st.2 u ((find st.2 u).getD [] ++ [m])) := by
          unfold bracketAdd
          rw [hat]
          simp only
          rw [if_pos, markableSpan_ok.2 hts]
          · simp only [bind, Except.bind, hh, hl]; rfl
          · obtain ⟨v, hv⟩ := hs.1 hm
            rw [has_iff, mem_keys_iff]
            unfold nodeAttr nodeAttrs at hv
            rw [hat] at hv
            exact ⟨v, hv⟩
        rw [this]
        exact e
      · simpa [List.filter_cons, hm] using r1
      · simpa [List.filter_cons, hm] using r2

theorem popMany_ok (n : Nat) : ∀ (stack : List NodeId), n ≤ stack.length → popMany n stack = .ok (stack.take n, stack.drop n) := by
  induction n with
  | zero => intro stack _; rfl
  | succ n ih =>
    intro stack h
    cases stack with
    | nil => simp at h
    | cons m stack =>
      rw [popMany, ih stack (by simpa using h)]
      rfl

theorem filter_lt_succ {α : Type} (S : List α) (a : α → Nat) (i : Nat) :
    (S.filter (fun m => decide (a m < i + 1))).Perm (S.filter (fun m => decide (a m < i)) ++ S.filter (fun m => decide (a m = i))) := by
  have h := List.filter_append_perm (fun m => decide (a m < i)) (S.filter (fun m => decide (a m < i + 1)))
  rw [List.filter_filter, List.filter_filter] at h
  have e1 : S.filter (fun m => decide (a m < i) && decide (a m < i + 1)) = S.filter (fun m => decide (a m < i)) := by
    apply List.filter_congr
    intro m _
    rw [Bool.eq_iff_iff]; simp; omega
  have e2 : S.filter (fun m => (!decide (a m < i)) && decide (a m < i + 1)) = S.filter (fun m => decide (a m = i)) := by
    apply List.filter_congr
    intro m _
    rw [Bool.eq_iff_iff]; simp; omega
  rw [e1, e2] at h
  exact h.symm

/-- how often `popMany` is called, without looking at what is popped -/
theorem bracketTokens_spec {g : DG} {opening closing : Dict NodeId (List NodeId)} {S : List NodeId} {a b : NodeId → Nat} (nd : g.tokens.Nodup)
    (hab : ∀ m ∈ S, a m ≤ b m)
    (h1 : ∀ t, (find opening t).getD [] = S.filter (fun m => decide (g.tokens[a m]? = some t)))
    (h2 : ∀ t, (find closing t).getD [] = S.filter (fun m => decide (g.tokens[b m]? = some t))) (ts : List NodeId) :
    ∀ (pre : List NodeId) (strs : List String) (stack closed : List NodeId), g.tokens = pre ++ ts → List.Forall₂ g.TokenStr ts strs →
    (closed ++ stack).Perm (S.filter (fun m => decide (a m < pre.length))) → closed.length = (S.filter (fun m => decide (b m < pre.length))).length →
    ∃ bs, g.bracketTokens opening closing stack ts = .ok bs ∧ List.Forall₂ (fun x s => x.token = s.toList) bs strs ∧
      (∀ (j : Nat) x, bs[j]? = some x → x.opened = (S.filter (fun m => decide (a m = pre.length + j))).length ∧
        x.closed.length = (S.filter (fun m => decide (b m = pre.length + j))).length) ∧
      ∃ rest, (closed ++ bs.flatMap BracketToken.closed ++ rest).Perm (S.filter (fun m => decide (a m < g.tokens.length))) ∧
        (closed ++ bs.flatMap BracketToken.closed).length = (S.filter (fun m => decide (b m < g.tokens.length))).length := by
  induction ts with
  | nil =>
    intro pre strs stack closed e hf hp hl
    cases hf
    rw [List.append_nil] at e
    refine ⟨[], rfl, .nil, by simp, stack, ?_, ?_⟩
    · simpa [e] using hp
    · simpa [e] using hl
  | cons t ts ih =>
    intro pre strs stack closed e hf hp hl
    cases hf with
    | @cons _ s _ strs hts hrest =>
      have hidx : ∀ (k : Nat), (g.tokens[k]? = some t ↔ k = pre.length) := by
        intro k
        have h3 : g.tokens[pre.length]? = some t := by rw [e]; simp
        constructor
        · intro hk
          exact (List.getElem?_inj (List.getElem?_eq_some_iff.1 hk).1 nd).1 (hk.trans h3.symm)
        · rintro rfl; exact h3
      have ho : (find opening t).getD [] = S.filter (fun m => decide (a m = pre.length)) := by
        rw [h1]; apply List.filter_congr; intro m _; simp [hidx]
      have hc : (find closing t).getD [] = S.filter (fun m => decide (b m = pre.length)) := by
        rw [h2]; apply List.filter_congr; intro m _; simp [hidx]
      let stack1 := (S.filter (fun m => decide (a m = pre.length))).reverse ++ stack
      let n := (S.filter (fun m => decide (b m = pre.length))).length
      have pa := filter_lt_succ S a pre.length
      have pb := filter_lt_succ S b pre.length
      have hle : (S.filter (fun m => decide (b m < pre.length + 1))).length ≤ (S.filter (fun m => decide (a m < pre.length + 1))).length := by
        rw [← List.countP_eq_length_filter, ← List.countP_eq_length_filter]
        apply List.countP_mono_left
        intro m hm h
        have := hab m hm
        simp only [decide_eq_true_eq] at h ⊢
        omega
      have p1 : (closed ++ stack1).Perm (S.filter (fun m => decide (a m < pre.length + 1))) := by
        refine List.Perm.trans ?_ pa.symm
        show (closed ++ ((S.filter (fun m => decide (a m = pre.length))).reverse ++ stack)).Perm _
        refine (List.Perm.append_left closed (List.perm_append_comm)).trans ?_
        rw [← List.append_assoc]
        exact hp.append (List.reverse_perm _)
      have hn : n ≤ stack1.length := by
        have q1 := p1.length_eq
        have q2 := pb.length_eq
        rw [List.length_append] at q1 q2
        show (S.filter (fun m => decide (b m = pre.length))).length ≤ _
        omega
      have htok : g.getToken t = .ok (.atom (.str s)) := getAttr_ok.2 hts
      obtain ⟨bs, e1, e2, e3, rest, e4, e5⟩ := ih (pre ++ [t]) strs (stack1.drop n) (closed ++ stack1.take n) (by simp [e]) hrest (by
        rw [List.append_assoc, List.take_append_drop, List.length_append, List.length_singleton]
        exact p1) (by
        rw [List.length_append, List.length_take, Nat.min_eq_left hn, hl, List.length_append, List.length_singleton, pb.length_eq, List.length_append])
      refine ⟨⟨(S.filter (fun m => decide (a m = pre.length))).length, s.toList, stack1.take n⟩ :: bs, ?_, .cons rfl e2, ?_, rest, ?_, ?_⟩
      · rw [bracketTokens, htok]
        simp only [bind, Except.bind, fmtVal, ho, hc]
        rw [popMany_ok _ _ hn]
        simp only
        rw [e1]
        rfl
      · intro j x hx
        cases j with
        | zero =>
          simp only [List.getElem?_cons_zero, Option.some.injEq] at hx
          subst hx
          refine ⟨rfl, ?_⟩
          simp only [List.length_take, Nat.min_eq_left hn]
          rfl
        | succ j =>
          have := e3 j x (by simpa using hx)
          rw [List.length_append, List.length_singleton, Nat.add_assoc, Nat.add_comm 1 j] at this
          exact this
      · rw [List.flatMap_cons, ← List.append_assoc]; exact e4
      · rw [List.flatMap_cons, ← List.append_assoc]; exact e5

/-- what is popped if the spans are nested -/
theorem bracketTokens_nested {g : DG} {opening closing : Dict NodeId (List NodeId)} {S : List NodeId} {a b : NodeId → Nat} (nd : g.tokens.Nodup)
    (hab : ∀ m ∈ S, a m ≤ b m)
    (h1 : ∀ t, (find opening t).getD [] = S.filter (fun m => decide (g.tokens[a m]? = some t)))
    (h2 : ∀ t, (find closing t).getD [] = S.filter (fun m => decide (g.tokens[b m]? = some t)))
    (hn1 : ∀ m ∈ S, ∀ n ∈ S, a m < a n → b m < a n ∨ b n ≤ b m) (hn2 : S.Pairwise (fun m n => a m = a n → b n ≤ b m)) (ts : List NodeId) :
    ∀ (pre : List NodeId) (strs : List String) (stack : List NodeId), g.tokens = pre ++ ts → List.Forall₂ g.TokenStr ts strs →
    stack.Perm (S.filter (fun m => decide (a m < pre.length ∧ pre.length ≤ b m))) → stack.Pairwise (fun x y => b x ≤ b y) →
    ∃ bs, g.bracketTokens opening closing stack ts = .ok bs ∧
      (∀ (j : Nat) x, bs[j]? = some x → x.closed.Perm (S.filter (fun m => decide (b m = pre.length + j)))) := by
  induction ts with
  | nil => intro pre strs stack e hf hp hl; exact ⟨[], rfl, by simp⟩
  | cons t ts ih =>
    intro pre strs stack e hf hp hl
    cases hf with
    | @cons _ s _ strs hts hrest =>
      have hidx : ∀ (k : Nat), (g.tokens[k]? = some t ↔ k = pre.length) := by
        intro k
        have h3 : g.tokens[pre.length]? = some t := by rw [e]; simp
        constructor
        · intro hk
          exact (List.getElem?_inj (List.getElem?_eq_some_iff.1 hk).1 nd).1 (hk.trans h3.symm)
        · rintro rfl; exact h3
      have ho : (find opening t).getD [] = S.filter (fun m => decide (a m = pre.length)) := by
        rw [h1]; apply List.filter_congr; intro m _; simp [hidx]
      have hc : (find closing t).getD [] = S.filter (fun m => decide (b m = pre.length)) := by
        rw [h2]; apply List.filter_congr; intro m _; simp [hidx]
      let stack1 := (S.filter (fun m => decide (a m = pre.length))).reverse ++ stack
      let n := (S.filter (fun m => decide (b m = pre.length))).length
      have hmem : ∀ m, m ∈ stack1 → m ∈ S ∧ a m ≤ pre.length ∧ pre.length ≤ b m := by
        intro m hm
        rcases List.mem_append.1 hm with h | h
        · rw [List.mem_reverse, List.mem_filter] at h
          have := hab m h.1
          have := of_decide_eq_true h.2
          exact ⟨h.1, by omega, by omega⟩
        · rw [hp.mem_iff, List.mem_filter] at h
          have := of_decide_eq_true h.2
          exact ⟨h.1, by omega, by omega⟩
      have p1 : stack1.Perm (S.filter (fun m => decide (a m < pre.length + 1 ∧ pre.length ≤ b m))) := by
        have q := filter_lt_succ (S.filter (fun m => decide (pre.length ≤ b m))) a pre.length
        rw [List.filter_filter, List.filter_filter, List.filter_filter] at q
        have q1 : S.filter (fun m => decide (a m < pre.length + 1) && decide (pre.length ≤ b m)) = S.filter (fun m => decide (a m < pre.length + 1 ∧ pre.length ≤ b m)) := by
          apply List.filter_congr; intro m _; simp
        have q2 : S.filter (fun m => decide (a m < pre.length) && decide (pre.length ≤ b m)) = S.filter (fun m => decide (a m < pre.length ∧ pre.length ≤ b m)) := by
          apply List.filter_congr; intro m _; simp
        have q3 : S.filter (fun m => decide (a m = pre.length) && decide (pre.length ≤ b m)) = S.filter (fun m => decide (a m = pre.length)) := by
          apply List.filter_congr
          intro m hm
          have := hab m hm
          rw [Bool.eq_iff_iff]; simp; omega
        rw [q1, q2, q3] at q
        refine List.Perm.trans ?_ q.symm
        exact (List.perm_append_comm).trans (hp.append (List.reverse_perm _))
      have hpw : stack1.Pairwise (fun x y => b x ≤ b y) := by
        show ((S.filter (fun m => decide (a m = pre.length))).reverse ++ stack).Pairwise _
        rw [List.pairwise_append]
        refine ⟨?_, hl, ?_⟩
        · rw [List.pairwise_reverse]
          refine List.Pairwise.imp_of_mem ?_ (List.Pairwise.filter _ hn2)
          intro x y hx hy h
          rw [List.mem_filter] at hx hy
          exact h ((of_decide_eq_true hx.2).trans (of_decide_eq_true hy.2).symm)
        · intro x hx y hy
          rw [List.mem_reverse, List.mem_filter] at hx
          rw [hp.mem_iff, List.mem_filter] at hy
          have hx2 := of_decide_eq_true hx.2
          have hy2 := of_decide_eq_true hy.2
          have := hn1 y hy.1 x hx.1 (by omega)
          omega
      -- the markables that end here are on top
      have hsplit : ∀ (l : List NodeId), l.Pairwise (fun x y => b x ≤ b y) → (∀ m ∈ l, pre.length ≤ b m) →
          l.take (l.filter (fun m => decide (b m = pre.length))).length = l.filter (fun m => decide (b m = pre.length)) ∧
          l.drop (l.filter (fun m => decide (b m = pre.length))).length = l.filter (fun m => !decide (b m = pre.length)) := by
        intro l
        induction l with
        | nil => intro _ _; exact ⟨rfl, rfl⟩
        | cons x l ih2 =>
          intro hp2 hge
          rw [List.pairwise_cons] at hp2
          by_cases hx : b x = pre.length
          · obtain ⟨i1, i2⟩ := ih2 hp2.2 (fun m hm => hge m (List.mem_cons_of_mem _ hm))
            rw [List.filter_cons_of_pos (by simpa using hx), List.filter_cons_of_neg (by simpa using hx)]
            rw [List.length_cons, List.take_succ_cons, List.drop_succ_cons]
            exact ⟨by rw [i1], i2⟩
          · have hall : ∀ m ∈ x :: l, b m ≠ pre.length := by
              intro m hm
              have h0 := hge x (by simp)
              rcases List.mem_cons.1 hm with rfl | hm
              · exact hx
              · have := hp2.1 m hm
                omega
            have f1 : (x :: l).filter (fun m => decide (b m = pre.length)) = [] := by
              rw [List.filter_eq_nil_iff]; intro m hm; simpa using hall m hm
            have f2 : (x :: l).filter (fun m => !decide (b m = pre.length)) = x :: l := by
              rw [List.filter_eq_self]; intro m hm; simpa using hall m hm
            rw [f1, f2]
            exact ⟨rfl, rfl⟩
      obtain ⟨i1, i2⟩ := hsplit stack1 hpw (fun m hm => (hmem m hm).2.2)
      have hends : (stack1.filter (fun m => decide (b m = pre.length))).Perm (S.filter (fun m => decide (b m = pre.length))) := by
        refine (p1.filter _).trans ?_
        rw [List.filter_filter]
        rw [show S.filter (fun m => decide (b m = pre.length) && decide (a m < pre.length + 1 ∧ pre.length ≤ b m)) = S.filter (fun m => decide (b m = pre.length)) by
          apply List.filter_congr
          intro m hm
          have := hab m hm
          rw [Bool.eq_iff_iff]; simp; omega]
      have hlen : n = (stack1.filter (fun m => decide (b m = pre.length))).length := hends.length_eq.symm
      rw [← hlen] at i1 i2
      have hnle : n ≤ stack1.length := by rw [hlen]; exact List.length_filter_le _ _
      have htok : g.getToken t = .ok (.atom (.str s)) := getAttr_ok.2 hts
      obtain ⟨bs, e1, e3⟩ := ih (pre ++ [t]) strs (stack1.drop n) (by simp [e]) hrest (by
        rw [i2, List.length_append, List.length_singleton]
        refine (p1.filter _).trans ?_
        rw [List.filter_filter]
        rw [show S.filter (fun m => (!decide (b m = pre.length)) && decide (a m < pre.length + 1 ∧ pre.length ≤ b m)) =
            S.filter (fun m => decide (a m < pre.length + 1 ∧ pre.length + 1 ≤ b m)) by
          apply List.filter_congr
          intro m hm
          rw [Bool.eq_iff_iff]; simp; omega]) (hpw.sublist (List.drop_sublist _ _))
      refine ⟨⟨(S.filter (fun m => decide (a m = pre.length))).length, s.toList, stack1.take n⟩ :: bs, ?_, ?_⟩
      · rw [bracketTokens, htok]
        simp only [bind, Except.bind, fmtVal, ho, hc]
        rw [popMany_ok _ _ hnle]
        simp only
        rw [e1]
        rfl
      · intro j x hx
        cases j with
        | zero =>
          simp only [List.getElem?_cons_zero, Option.some.injEq] at hx
          subst hx
          show (stack1.take n).Perm _
          rw [i1]
          exact hends
        | succ j =>
          have := e3 j x (by simpa using hx)
          rw [List.length_append, List.length_singleton, Nat.add_assoc, Nat.add_comm 1 j] at this
          exact this

end DG
end Dg
