import Verif.Spec.Ptb
import Verif.Lemmas.DisRead
import Mathlib.Data.List.Pairwise

/-! The calls made by the reader of Penn Treebank files. -/

namespace Dg
open Dict

theorem Syn.ind {P : Syn → Prop} (h1 : ∀ pos w, P (.tok pos w)) (h2 : ∀ c ks, (∀ k ∈ ks, P k) → P (.phrase c ks)) (t : Syn) : P t :=
  Syn.rec (motive_1 := P) (motive_2 := fun l => ∀ k ∈ l, P k) h1 (fun a kids ih => h2 a kids ih) (by simp)
    (fun t ts ht hts k hk => by
      rcases List.mem_cons.1 hk with rfl | hk
      · exact ht
      · exact hts k hk) t

theorem Syn.ptrees_eq (ks : List Syn) : Syn.ptrees ks = ks.map Syn.ptree := by
  induction ks with
  | nil => rfl
  | cons k ks ih => rw [ptrees, ih]; rfl

theorem Syn.wordsAll_eq (ks : List Syn) : Syn.wordsAll ks = ks.flatMap Syn.words := by
  induction ks with
  | nil => rfl
  | cons k ks ih => rw [wordsAll, ih]; rfl

namespace Syn

mutual
/-- how many numbers a tree takes -/
def width (ig : Bool) : Syn → Nat
  | tok _ _ => 2
  | phrase _ ks => 1 + widths ig ks
/-- how many numbers the parts take -/
def widths (ig : Bool) : List Syn → Nat
  | [] => 0
  | k :: ks => (if kept ig k then width true k else 1) + widths ig ks
end

mutual
/-- the nodes of a tree; `n` is the number of its own node -/
def rowsAt (ig : Bool) (p n : Nat) : Syn → List PtbRow
  | tok pos w => [⟨p, n, tok pos w⟩]
  | phrase c ks => ⟨p, n, phrase c ks⟩ :: rowsKids ig n (n + 1) ks
/-- the nodes of the parts; `n` is the next number -/
def rowsKids (ig : Bool) (p n : Nat) : List Syn → List PtbRow
  | [] => []
  | k :: ks => if kept ig k then rowsAt true p n k ++ rowsKids ig p (n + width true k) ks else rowsKids ig p (n + 1) ks
end

/-- the nodes of all sentences -/
def rowsDoc (ig : Bool) (n : Nat) : List Syn → List PtbRow
  | [] => []
  | t :: ts => rowsAt ig 0 n t ++ rowsDoc ig (n + width ig t) ts

theorem width_pos (ig : Bool) (t : Syn) : 1 ≤ width ig t := by
  cases t <;> simp only [width] <;> omega

/-- the numbers of the nodes of a tree -/
theorem rowsKids_ids {ks : List Syn} (ih : ∀ k ∈ ks, ∀ p n, (∀ r ∈ rowsAt true p n k, n ≤ r.id ∧ r.id < n + width true k) ∧ (rowsAt true p n k).Pairwise (fun a b => a.id < b.id)) (ig : Bool) (p : Nat) :
    ∀ n, (∀ r ∈ rowsKids ig p n ks, n ≤ r.id ∧ r.id < n + widths ig ks) ∧ (rowsKids ig p n ks).Pairwise (fun a b => a.id < b.id) := by
  induction ks with
  | nil => intro n; exact ⟨by simp [rowsKids], .nil⟩
  | cons k ks ihk =>
    intro n
    have ihk := ihk (fun k' hk' => ih k' (List.mem_cons_of_mem _ hk'))
    rw [rowsKids, widths]
    split
    · obtain ⟨h1, h2⟩ := ih k (by simp) p n
      obtain ⟨h3, h4⟩ := ihk (n + width true k)
      refine ⟨?_, List.pairwise_append.2 ⟨h2, h4, ?_⟩⟩
      · intro r hr
        rcases List.mem_append.1 hr with hr | hr
        · have := h1 r hr; omega
        · have := h3 r hr; omega
      · intro a ha b hb
        have := h1 a ha
        have := h3 b hb
        omega
    · obtain ⟨h3, h4⟩ := ihk (n + 1)
      refine ⟨?_, h4⟩
      intro r hr
      have := h3 r hr
      omega

theorem rowsAt_ids (t : Syn) : ∀ ig p n, (∀ r ∈ rowsAt ig p n t, n ≤ r.id ∧ r.id < n + width ig t) ∧ (rowsAt ig p n t).Pairwise (fun a b => a.id < b.id) := by
  induction t using Syn.ind with
  | h1 pos w => intro ig p n; simp [rowsAt, width]
  | h2 c ks ih =>
    intro ig p n
    obtain ⟨h1, h2⟩ := rowsKids_ids (fun k hk => ih k hk true) ig n (n + 1)
    rw [rowsAt, width]
    refine ⟨?_, List.pairwise_cons.2 ⟨?_, h2⟩⟩
    · intro r hr
      rcases List.mem_cons.1 hr with rfl | hr
      · simp only; omega
      · have := h1 r hr; omega
    · intro r hr
      have := h1 r hr
      simp only; omega

theorem rowsDoc_ids (ig : Bool) (ts : List Syn) : ∀ n, (∀ r ∈ rowsDoc ig n ts, n ≤ r.id) ∧ (rowsDoc ig n ts).Pairwise (fun a b => a.id < b.id) := by
  induction ts with
  | nil => intro n; exact ⟨by simp [rowsDoc], .nil⟩
  | cons t ts ih =>
    intro n
    obtain ⟨h1, h2⟩ := rowsAt_ids t ig 0 n
    obtain ⟨h3, h4⟩ := ih (n + width ig t)
    rw [rowsDoc]
    refine ⟨?_, List.pairwise_append.2 ⟨h2, h4, ?_⟩⟩
    · intro r hr
      rcases List.mem_append.1 hr with hr | hr
      · exact (h1 r hr).1
      · have := h3 r hr; omega
    · intro a ha b hb
      have := h1 a ha
      have := h3 b hb
      omega

/-- the first node of a tree is the tree itself -/
theorem rowsAt_head (ig : Bool) (p n : Nat) (t : Syn) : ∃ rest, rowsAt ig p n t = ⟨p, n, t⟩ :: rest ∧ ∀ r ∈ rest, n ≤ r.parent ∧ r.parent < n + width ig t := by
  induction t using Syn.ind generalizing ig p n with
  | h1 pos w => exact ⟨[], rfl, by simp⟩
  | h2 c ks ih =>
    refine ⟨_, rfl, ?_⟩
    have key : ∀ (ks' : List Syn), (∀ k ∈ ks', k ∈ ks) → ∀ m, n + 1 ≤ m → ∀ r ∈ rowsKids ig n m ks', n ≤ r.parent ∧ (r.parent = n ∨ r.parent < m + widths ig ks') := by
      intro ks'
      induction ks' with
      | nil => intro _ m _ r hr; simp [rowsKids] at hr
      | cons k ks' ihk =>
        intro hsub m hm r hr
        rw [rowsKids] at hr
        rw [widths]
        split at hr
        · rename_i hk
          rw [if_pos hk]
          rcases List.mem_append.1 hr with hr | hr
          · obtain ⟨rest, e, hrest⟩ := ih k (hsub k (by simp)) true n m
            rw [e] at hr
            rcases List.mem_cons.1 hr with rfl | hr
            · exact ⟨Nat.le_refl _, .inl rfl⟩
            · have := hrest r hr
              exact ⟨by omega, .inr (by omega)⟩
          · have := ihk (fun k' hk' => hsub k' (List.mem_cons_of_mem _ hk')) (m + width true k) (by omega) r hr
            exact ⟨this.1, this.2.imp id (fun h => by omega)⟩
        · rename_i hk
          rw [if_neg hk]
          have := ihk (fun k' hk' => hsub k' (List.mem_cons_of_mem _ hk')) (m + 1) (by omega) r hr
          exact ⟨this.1, this.2.imp id (fun h => by omega)⟩
    intro r hr
    have := key ks (fun _ h => h) (n + 1) (by omega) r hr
    rw [width]
    refine ⟨this.1, ?_⟩
    rcases this.2 with h | h <;> omega

/-- the parents of the nodes of a list of parts -/
theorem rowsKids_parents (ig : Bool) (p : Nat) (ks : List Syn) : ∀ n, ∀ r ∈ rowsKids ig p n ks, r.parent = p ∨ (n ≤ r.parent ∧ r.parent < n + widths ig ks) := by
  induction ks with
  | nil => intro n r hr; simp [rowsKids] at hr
  | cons k ks ihk =>
    intro n r hr
    rw [rowsKids] at hr
    rw [widths]
    split at hr
    · rename_i hk
      rw [if_pos hk]
      rcases List.mem_append.1 hr with hr | hr
      · obtain ⟨rest, e, hrest⟩ := rowsAt_head true p n k
        rw [e] at hr
        rcases List.mem_cons.1 hr with rfl | hr
        · exact .inl rfl
        · have := hrest r hr
          exact .inr (by omega)
      · exact (ihk _ r hr).imp id (fun h => by omega)
    · rename_i hk
      rw [if_neg hk]
      exact (ihk _ r hr).imp id (fun h => by omega)

theorem filter_none {α : Type} {q : α → Bool} {l : List α} (h : ∀ x ∈ l, q x = false) : l.filter q = [] := by
  rw [List.filter_eq_nil_iff]
  intro x hx
  simp [h x hx]

/-- the nodes attached to the parent are the parts -/
theorem rowsKids_top (ig : Bool) (p : Nat) (ks : List Syn) : ∀ n, p < n → ((rowsKids ig p n ks).filter (fun r => decide (r.parent = p))).map PtbRow.tree = ks.filter (kept ig) := by
  induction ks with
  | nil => intro n _; rfl
  | cons k ks ih =>
    intro n hn
    rw [rowsKids]
    by_cases hk : kept ig k = true
    · rw [if_pos hk, List.filter_append, List.map_append, ih _ (by omega), List.filter_cons_of_pos hk]
      obtain ⟨rest, e, hrest⟩ := rowsAt_head true p n k
      rw [e, List.filter_cons_of_pos (by simp), filter_none (l := rest)]
      · rfl
      · intro r hr
        have := hrest r hr
        simp only [decide_eq_false_iff_not]
        omega
    · rw [if_neg hk, ih _ (by omega), List.filter_cons_of_neg hk]

/-- the nodes attached to a node of a tree are its parts -/
theorem rowsAt_parts (t : Syn) : ∀ ig p n, p < n → ∀ r ∈ rowsAt ig p n t, ((rowsAt ig p n t).filter (fun q => decide (q.parent = r.id))).map PtbRow.tree = r.tree.parts.filter (kept (ig || decide (r.id ≠ n))) := by
  induction t using Syn.ind with
  | h1 pos w =>
    intro ig p n hp r hr
    rw [rowsAt] at hr ⊢
    obtain rfl := List.mem_singleton.1 hr
    rw [filter_none]
    · rfl
    · intro x hx
      obtain rfl := List.mem_singleton.1 hx
      simp; omega
  | h2 c ks ih =>
    intro ig p n hp r hr
    rw [rowsAt] at hr ⊢
    rcases List.mem_cons.1 hr with rfl | hr
    · rw [List.filter_cons_of_neg (by simp; omega), rowsKids_top ig n ks (n + 1) (by omega)]
      simp [parts]
    · have hid := (rowsKids_ids (ks := ks) (fun k hk => rowsAt_ids k true) ig n (n + 1)).1 r hr
      rw [List.filter_cons_of_neg (by simp; omega)]
      have hne : decide (r.id ≠ n) = true := by simp; omega
      rw [hne, Bool.or_true]
      have key : ∀ (ks' : List Syn), (∀ k ∈ ks', k ∈ ks) → ∀ m, n < m → r ∈ rowsKids ig n m ks' → ((rowsKids ig n m ks').filter (fun q => decide (q.parent = r.id))).map PtbRow.tree = r.tree.parts.filter (kept true) := by
        intro ks'
        induction ks' with
        | nil => intro _ m _ hr; simp [rowsKids] at hr
        | cons k ks' ihk =>
          intro hsub m hm hr
          rw [rowsKids] at hr ⊢
          by_cases hk : kept ig k = true
          · rw [if_pos hk] at hr ⊢
            rw [List.filter_append, List.map_append]
            have h1 := (rowsAt_ids k true n m).1
            rcases List.mem_append.1 hr with hr | hr
            · rw [filter_none (l := rowsKids ig n (m + width true k) ks'), List.map_nil, List.append_nil, ih k (hsub k (by simp)) true n m hm r hr]
              · simp
              · intro q hq
                have := rowsKids_parents _ _ _ _ q hq
                have := h1 r hr
                simp only [decide_eq_false_iff_not]
                omega
            · rw [ihk (fun k' hk' => hsub k' (List.mem_cons_of_mem _ hk')) (m + width true k) (by omega) hr, filter_none (l := rowsAt true n m k)]
              · rfl
              · intro q hq
                have h3 := (rowsKids_ids (ks := ks') (fun k hk => rowsAt_ids k true) ig n (m + width true k)).1 r hr
                obtain ⟨rest, e, hrest⟩ := rowsAt_head true n m k
                rw [e] at hq
                simp only [decide_eq_false_iff_not]
                rcases List.mem_cons.1 hq with rfl | hq
                · simp only; omega
                · have := hrest q hq
                  omega
          · rw [if_neg hk] at hr ⊢
            exact ihk (fun k' hk' => hsub k' (List.mem_cons_of_mem _ hk')) (m + 1) (by omega) hr
      exact key ks (fun _ h => h) (n + 1) (by omega) hr

/-- the parent of a node of a tree is a node of the tree -/
theorem rowsAt_parents (t : Syn) : ∀ ig p n, ∀ r ∈ rowsAt ig p n t, (r.parent = p ∧ r.id = n) ∨ ∃ q ∈ rowsAt ig p n t, q.id = r.parent ∧ q.id < r.id := by
  induction t using Syn.ind with
  | h1 pos w =>
    intro ig p n r hr
    rw [rowsAt] at hr
    obtain rfl := List.mem_singleton.1 hr
    exact .inl ⟨rfl, rfl⟩
  | h2 c ks ih =>
    intro ig p n r hr
    rw [rowsAt] at hr ⊢
    rcases List.mem_cons.1 hr with rfl | hr
    · exact .inl ⟨rfl, rfl⟩
    · right
      have key : ∀ (ks' : List Syn), (∀ k ∈ ks', k ∈ ks) → ∀ m, n < m → r ∈ rowsKids ig n m ks' → r.parent = n ∨ ∃ q ∈ rowsKids ig n m ks', q.id = r.parent ∧ q.id < r.id := by
        intro ks'
        induction ks' with
        | nil => intro _ m _ hr; simp [rowsKids] at hr
        | cons k ks' ihk =>
          intro hsub m hm hr
          rw [rowsKids] at hr ⊢
          by_cases hk : kept ig k = true
          · rw [if_pos hk] at hr ⊢
            rcases List.mem_append.1 hr with hr | hr
            · rcases ih k (hsub k (by simp)) true n m r hr with h | ⟨q, hq, h⟩
              · exact .inl h.1
              · exact .inr ⟨q, List.mem_append_left _ hq, h⟩
            · rcases ihk (fun k' hk' => hsub k' (List.mem_cons_of_mem _ hk')) (m + width true k) (by omega) hr with h | ⟨q, hq, h⟩
              · exact .inl h
              · exact .inr ⟨q, List.mem_append_right _ hq, h⟩
          · rw [if_neg hk] at hr ⊢
            exact ihk (fun k' hk' => hsub k' (List.mem_cons_of_mem _ hk')) (m + 1) (by omega) hr
      have hid := (rowsKids_ids (ks := ks) (fun k hk => rowsAt_ids k true) ig n (n + 1)).1 r hr
      rcases key ks (fun _ h => h) (n + 1) (by omega) hr with h | ⟨q, hq, h⟩
      · exact ⟨⟨p, n, .phrase c ks⟩, by simp, h.symm, by simp only; omega⟩
      · exact ⟨q, List.mem_cons_of_mem _ hq, h⟩

/-- what a node of a tree stands for is a part of it -/
theorem rowsAt_part (t : Syn) : ∀ ig p n, ∀ r ∈ rowsAt ig p n t, Part r.tree t := by
  induction t using Syn.ind with
  | h1 pos w =>
    intro ig p n r hr
    rw [rowsAt] at hr
    obtain rfl := List.mem_singleton.1 hr
    exact .refl _
  | h2 c ks ih =>
    intro ig p n r hr
    rw [rowsAt] at hr
    rcases List.mem_cons.1 hr with rfl | hr
    · exact .refl _
    · have key : ∀ (ks' : List Syn), (∀ k ∈ ks', k ∈ ks) → ∀ m, r ∈ rowsKids ig n m ks' → ∃ k ∈ ks, Part r.tree k := by
        intro ks'
        induction ks' with
        | nil => intro _ m hr; simp [rowsKids] at hr
        | cons k ks' ihk =>
          intro hsub m hr
          rw [rowsKids] at hr
          split at hr
          · rcases List.mem_append.1 hr with hr | hr
            · exact ⟨k, hsub k (by simp), ih k (hsub k (by simp)) _ _ _ r hr⟩
            · exact ihk (fun k' hk' => hsub k' (List.mem_cons_of_mem _ hk')) _ hr
          · exact ihk (fun k' hk' => hsub k' (List.mem_cons_of_mem _ hk')) _ hr
      obtain ⟨k, hk, h⟩ := key ks (fun _ h => h) _ hr
      exact .kid hk h

theorem rowsDoc_parts (ig : Bool) (ts : List Syn) : ∀ n, 0 < n →
    ((rowsDoc ig n ts).filter (fun r => decide (r.parent = 0))).map PtbRow.tree = ts ∧
    (∀ r ∈ rowsDoc ig n ts, ((rowsDoc ig n ts).filter (fun q => decide (q.parent = r.id))).map PtbRow.tree = r.tree.parts.filter (kept (ig || decide (r.parent ≠ 0)))) ∧
    (∀ r ∈ rowsDoc ig n ts, r.parent = 0 ∨ (n ≤ r.parent ∧ ∃ q ∈ rowsDoc ig n ts, q.id = r.parent ∧ q.id < r.id)) := by
  induction ts with
  | nil => intro n _; simp [rowsDoc]
  | cons t ts ih =>
    intro n hn
    obtain ⟨i1, i2, i3⟩ := ih (n + width ig t) (by omega)
    have hid := (rowsAt_ids t ig 0 n).1
    have hid' := (rowsDoc_ids ig ts (n + width ig t)).1
    obtain ⟨rest, e, hrest⟩ := rowsAt_head ig 0 n t
    have hpar : ∀ r ∈ rowsAt ig 0 n t, r.parent = 0 ∨ (n ≤ r.parent ∧ r.parent < n + width ig t) := by
      intro r hr
      rw [e] at hr
      rcases List.mem_cons.1 hr with rfl | hr
      · exact .inl rfl
      · exact .inr (hrest r hr)
    have hzero : ∀ r ∈ rowsAt ig 0 n t, decide (r.id ≠ n) = decide (r.parent ≠ 0) := by
      intro r hr
      rw [e] at hr
      rcases List.mem_cons.1 hr with rfl | hr
      · simp
      · have h1 := hrest r hr
        have h2 := (rowsAt_ids t ig 0 n).2
        rw [e] at h2
        have h3 := (List.pairwise_cons.1 h2).1 r hr
        simp only at h3
        rw [decide_eq_decide]
        omega
    rw [rowsDoc]
    refine ⟨?_, ?_, ?_⟩
    · rw [List.filter_append, List.map_append, i1, e, List.filter_cons_of_pos (by simp), filter_none (l := rest)]
      · rfl
      · intro r hr
        have := hrest r hr
        simp only [decide_eq_false_iff_not]
        omega
    · intro r hr
      rw [List.filter_append, List.map_append]
      rcases List.mem_append.1 hr with hr | hr
      · rw [rowsAt_parts t ig 0 n hn r hr, hzero r hr, filter_none (l := rowsDoc ig (n + width ig t) ts)]
        · simp
        · intro q hq
          have h1 := hid r hr
          have h2 := i3 q hq
          simp only [decide_eq_false_iff_not]
          omega
      · rw [i2 r hr, filter_none (l := rowsAt ig 0 n t)]
        · rfl
        · intro q hq
          have h1 := hid' r hr
          have h2 := hpar q hq
          simp only [decide_eq_false_iff_not]
          omega
    · intro r hr
      rcases List.mem_append.1 hr with hr | hr
      · rcases rowsAt_parents t ig 0 n r hr with h | ⟨q, hq, h⟩
        · exact .inl h.1
        · have := hid q hq
          exact .inr ⟨by omega, q, List.mem_append_left _ hq, h⟩
      · rcases i3 r hr with h | ⟨h0, q, hq, h⟩
        · exact .inl h
        · exact .inr ⟨by omega, q, List.mem_append_right _ hq, h⟩

theorem rowsDoc_spec (ig : Bool) (ts : List Syn) : PtbRows ig ts (rowsDoc ig 1 ts) := by
  obtain ⟨h1, h2⟩ := rowsDoc_ids ig ts 1
  obtain ⟨h3, h4, h5⟩ := rowsDoc_parts ig ts 1 (by omega)
  exact ⟨h2, fun r hr => h1 r hr, h3, h4, fun r hr => (h5 r hr).imp id (fun h => h.2)⟩

theorem rowsDoc_part (ig : Bool) (ts : List Syn) : ∀ n, ∀ r ∈ rowsDoc ig n ts, ∃ t ∈ ts, Part r.tree t := by
  induction ts with
  | nil => intro n r hr; simp [rowsDoc] at hr
  | cons t ts ih =>
    intro n r hr
    rw [rowsDoc] at hr
    rcases List.mem_append.1 hr with hr | hr
    · exact ⟨t, by simp, rowsAt_part t _ _ _ r hr⟩
    · obtain ⟨t', ht', h⟩ := ih _ r hr
      exact ⟨t', List.mem_cons_of_mem _ ht', h⟩

end Syn
end Dg
