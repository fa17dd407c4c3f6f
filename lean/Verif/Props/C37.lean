import Verif.Model.Rs3
import Verif.Spec.Rs3
import Verif.Lemmas.Rst
import Verif.Lemmas.Chains
import Verif.Lemmas.Forall2
import Batteries.Lean.Except

/-!
**C37** RST schemata are binarised without losing or reordering EDUs: order_schema/convert_schema combine a nucleus and its satellites into a tree that contains every
satellite subtree exactly once, whose EDUs are in text order, and in which every satellite hangs under a relation node bearing its relation name.

`order_schema` looks up positions by EDU text; if two EDUs have the same text, the order is wrong or the reader fails (`c37_fails_duplicate_text`).
-/

namespace Dg
open Rs3Data DG

theorem DTree.plainAll_eq (ts : List DTree) : plainAll ts = ts.map plain := by
  induction ts with
  | nil => rfl
  | cons t ts ih => rw [plainAll, ih]; rfl

theorem DTree.leavesAll_eq (ts : List DTree) : leavesAll ts = ts.flatMap leaves := by
  induction ts with
  | nil => rfl
  | cons t ts ih => rw [leavesAll, ih]; rfl

theorem linearPosition_ok {d : Rs3Data} {t : DTree} {p : Nat} : d.linearPosition t = .ok p ↔ StartsAt d.eduStrings t.leaves p := by
  unfold linearPosition StartsAt
  cases hl : t.leaves with
  | nil => simp
  | cons s r =>
    simp only [List.head?_cons, Option.some.injEq, exists_eq_left']
    constructor
    · intro h
      split at h
      · rename_i hs
        cases h
        refine ⟨?_, fun j hj => ?_⟩
        · rw [List.getElem?_eq_getElem (List.idxOf_lt_length_of_mem hs), List.getElem_idxOf]
        · intro e
          obtain ⟨hlt, e⟩ := List.getElem?_eq_some_iff.1 e
          have := List.not_of_lt_findIdx (p := (· == s)) (xs := d.eduStrings) (i := j) (by simpa [List.idxOf] using hj)
          simp [e] at this
      · cases h
    · rintro ⟨h1, h2⟩
      have hs : s ∈ d.eduStrings := List.mem_of_getElem? h1
      rw [if_pos hs]
      congr 1
      have hlt := (List.getElem?_eq_some_iff.1 h1).1
      rcases Nat.lt_trichotomy (d.eduStrings.idxOf s) p with h | h | h
      · exact absurd (by rw [List.getElem?_eq_getElem (List.idxOf_lt_length_of_mem hs), List.getElem_idxOf]) (h2 _ h)
      · exact h
      · have := List.not_of_lt_findIdx (p := (· == s)) (xs := d.eduStrings) (i := p) (by simpa [List.idxOf] using h)
        simp [(List.getElem?_eq_some_iff.1 h1).2] at this

theorem StartsAt.unique {texts leaves : List (List Char)} {p q : Nat} (h1 : StartsAt texts leaves p) (h2 : StartsAt texts leaves q) : p = q := by
  obtain ⟨s, hs, hp, hlt⟩ := h1
  obtain ⟨s', hs', hq, hlt'⟩ := h2
  rw [hs] at hs'
  cases hs'
  rcases Nat.lt_trichotomy p q with h | h | h
  · exact absurd hp (hlt' _ h)
  · exact h
  · exact absurd hq (hlt _ h)

/-- the leaves of a combined tree -/
theorem Combined.leaves {nuc t : PTree} {sats : List (List Char × PTree × Bool)} (h : Combined nuc sats t) :
    t.leaves = (sats.reverse.filter (fun s => s.2.2)).flatMap (fun s => s.2.1.leaves) ++ nuc.leaves ++
      (sats.filter (fun s => !s.2.2)).flatMap (fun s => s.2.1.leaves) := by
  induction h with
  | last nuc name sat before => cases before <;> simp [PTree.leaves, PTree.leavesAll, beside]
  | @more nuc name sat before rest t hr _ ih => cases before <;> simp [ih, PTree.leaves, PTree.leavesAll, beside]

/-- the relation name of a tree that has one -/
def relOf (d : Rs3Data) (t : DTree) : List Char := (d.relname t.rootId).getD []

theorem convertSchema_ok {d : Rs3Data} {nucPos : Nat} (sats : List (DTree × Nat)) (hne : sats ≠ []) : ∀ {nuc t : DTree},
    d.convertSchema nuc nucPos sats = .ok t →
    (∀ s ∈ sats, d.relname s.1.rootId = some (relOf d s.1)) ∧ t.rootId = nuc.rootId ∧
      Combined nuc.plain (sats.map (fun s => (relOf d s.1, s.1.plain, decide (s.2 < nucPos)))) t.plain := by
  induction sats with
  | nil => exact absurd rfl hne
  | cons s rest ih =>
    obtain ⟨sat, pos⟩ := s
    intro nuc t h
    unfold convertSchema at h
    cases hn : d.relname sat.rootId with
    | none => rw [hn] at h; cases rest <;> cases h
    | some name =>
      have hrel : relOf d sat = name := by rw [relOf, hn]; rfl
      rw [hn] at h
      have hp : DTree.plainAll (if pos < nucPos then [sat, nuc] else [nuc, sat]) = beside (decide (pos < nucPos)) nuc.plain sat.plain := by
        unfold beside
        by_cases hlt : pos < nucPos <;> simp [hlt, DTree.plainAll]
      cases rest with
      | nil =>
        cases h
        refine ⟨fun s hs => ?_, rfl, ?_⟩
        · rw [List.mem_singleton] at hs; subst hs; rw [hn, hrel]
        · rw [DTree.plain, hp, List.map_cons, List.map_nil, hrel]
          exact .last _ _ _ _
      | cons s2 rest =>
        have h2 : d.convertSchema (.node ['N'] nuc.rootId [.node name none (if pos < nucPos then [sat, nuc] else [nuc, sat])]) nucPos (s2 :: rest) = .ok t := h
        obtain ⟨hf, hr, hc⟩ := ih (by simp) h2
        refine ⟨fun s hs => ?_, hr, ?_⟩
        · rcases List.mem_cons.1 hs with rfl | hs
          · rw [hn, hrel]
          · exact hf s hs
        · rw [DTree.plain, DTree.plainAll, DTree.plain, hp] at hc
          rw [List.map_cons, hrel]
          exact .more (by simp) hc

theorem convertSchema_total {d : Rs3Data} {nucPos : Nat} (sats : List (DTree × Nat)) (h : ∀ s ∈ sats, ∃ name, d.relname s.1.rootId = some name) : ∀ {nuc : DTree},
    ∃ t, d.convertSchema nuc nucPos sats = .ok t := by
  induction sats with
  | nil => exact fun {nuc} => ⟨nuc, rfl⟩
  | cons s rest ih =>
    obtain ⟨sat, pos⟩ := s
    intro nuc
    obtain ⟨name, hn⟩ := h _ List.mem_cons_self
    unfold convertSchema
    rw [hn]
    cases rest with
    | nil => exact ⟨_, rfl⟩
    | cons s2 rest => exact ih (fun s hs => h s (List.mem_cons_of_mem _ hs))

theorem posLe_total (a b : DTree × Nat) : decide (a.2 ≤ b.2) = true ∨ decide (b.2 ≤ a.2) = true := by
  simp only [decide_eq_true_eq]; omega
theorem posLe_trans (a b c : DTree × Nat) (h1 : decide (a.2 ≤ b.2) = true) (h2 : decide (b.2 ≤ c.2) = true) : decide (a.2 ≤ c.2) = true := by
  simp only [decide_eq_true_eq] at *; omega

theorem forall₂_map_self {α β : Type} {R : α → β → Prop} {xs : List α} {ys : List β} (h : List.Forall₂ R xs ys) (f : β → α)
    (hf : ∀ x y, R x y → f y = x) : ys.map f = xs := by
  induction h with
  | nil => rfl
  | cons hxy _ ih => rw [List.map_cons, ih, hf _ _ hxy]

theorem DTree.heightAll_reverse (ts : List DTree) : heightAll ts.reverse = heightAll ts := by
  have key : ∀ xs ys : List DTree, heightAll (xs ++ ys) = max (heightAll xs) (heightAll ys) := by
    intro xs ys
    induction xs with
    | nil => simp [heightAll]
    | cons x xs ih => simp only [List.cons_append, heightAll, ih]; omega
  induction ts with
  | nil => rfl
  | cons t ts ih => rw [List.reverse_cons, key, ih]; simp only [heightAll]; omega

theorem DTree.ind {P : DTree → Prop} (h1 : ∀ s, P (.leaf s)) (h2 : ∀ a i kids, (∀ k ∈ kids, P k) → P (.node a i kids)) (t : DTree) : P t :=
  DTree.rec (motive_1 := P) (motive_2 := fun l => ∀ k ∈ l, P k) h1 (fun a i kids ih => h2 a i kids ih) (by simp)
    (fun t ts ht hts k hk => by
      rcases List.mem_cons.1 hk with rfl | hk
      · exact ht
      · exact hts k hk) t

theorem DTree.leaves_plain (t : DTree) : t.plain.leaves = t.leaves := by
  induction t using ind with
  | h1 s => rfl
  | h2 a i kids ih =>
    rw [plain, PTree.leaves, leaves, PTree.leavesAll_eq, plainAll_eq, leavesAll_eq, List.flatMap_map]
    induction kids with
    | nil => rfl
    | cons k ks ih2 => rw [List.flatMap_cons, List.flatMap_cons, ih2 (fun k hk => ih k (List.mem_cons_of_mem _ hk)), ih k (by simp)]

/-- the satellites with their positions, as computed by order_schema -/
theorem satPositions {d : Rs3Data} {sats : List DTree} {tuples : List (DTree × Nat)}
    (h : mapE (fun s => (do return (s, ← d.linearPosition s) : Except PyErr (DTree × Nat))) sats = .ok tuples) :
    tuples.map Prod.fst = sats ∧ ∀ s ∈ tuples, StartsAt d.eduStrings s.1.leaves s.2 := by
  have hf := mapE_ok.1 h
  have key : ∀ (x : DTree) (y : DTree × Nat), (do return (x, ← d.linearPosition x) : Except PyErr (DTree × Nat)) = .ok y →
      y.1 = x ∧ StartsAt d.eduStrings y.1.leaves y.2 := by
    intro x y hxy
    cases hp : d.linearPosition x with
    | error e => rw [hp] at hxy; cases hxy
    | ok p => rw [hp] at hxy; cases hxy; exact ⟨rfl, linearPosition_ok.1 hp⟩
  refine ⟨forall₂_map_self hf _ (fun x y hxy => (key x y hxy).1), fun s hs => ?_⟩
  obtain ⟨x, _, hx⟩ := forall₂_mem_right hf hs
  exact (key x s hx).2

/-- **C37** Whatever order_schema returns is a correct binarisation of the schema.  `before` are the satellites that start before the nucleus, `after` those that start after it,
both sorted by their position in the text; together they are exactly the given satellites.  The result combines the nucleus with the satellites one by one, each under a relation
node that bears its relation name (Spec/Rs3.lean `Combined`), on each side from the inside to the outside, and starting with the side with the higher trees.  The EDUs of the
result are those of the satellites before, those of the nucleus and those of the satellites after it, in this order. -/
theorem c37_schema {d : Rs3Data} {nuc : DTree} {sats : List DTree} {t : DTree} (hne : sats ≠ []) (h : d.orderSchema nuc sats = .ok t) :
    ∃ (p : Nat) (before after : List (DTree × Nat)) (name : DTree → List Char),
      StartsAt d.eduStrings nuc.leaves p ∧
      ((before ++ after).map Prod.fst).Perm sats ∧
      (∀ s ∈ before ++ after, StartsAt d.eduStrings s.1.leaves s.2) ∧
      (∀ s ∈ before, s.2 < p) ∧ (∀ s ∈ after, p < s.2) ∧
      before.Pairwise (fun a b => a.2 ≤ b.2) ∧ after.Pairwise (fun a b => a.2 ≤ b.2) ∧
      (∀ s ∈ sats, d.relname s.rootId = some (name s)) ∧
      Combined nuc.plain
        (if DTree.heightAll (before.map Prod.fst) ≥ DTree.heightAll (after.map Prod.fst)
          then before.reverse.map (fun s => (name s.1, s.1.plain, true)) ++ after.map (fun s => (name s.1, s.1.plain, false))
          else after.map (fun s => (name s.1, s.1.plain, false)) ++ before.reverse.map (fun s => (name s.1, s.1.plain, true))) t.plain ∧
      t.leaves = before.flatMap (fun s => s.1.leaves) ++ nuc.leaves ++ after.flatMap (fun s => s.1.leaves) := by
  unfold orderSchema at h
  cases hp : d.linearPosition nuc with
  | error e => rw [hp] at h; cases h
  | ok p =>
  cases hm : mapE (fun s => (do return (s, ← d.linearPosition s) : Except PyErr (DTree × Nat))) sats with
  | error e => rw [hp, hm] at h; cases h
  | ok tuples =>
  rw [hp, hm, except_bind_ok, except_bind_ok] at h
  dsimp only at h
  obtain ⟨hfst, hpos⟩ := satPositions hm
  have hsorted := pySorted_sorted posLe_total posLe_trans tuples
  have hperm := pySorted_perm (le := fun (a b : DTree × Nat) => decide (a.2 ≤ b.2)) tuples
  generalize hS : pySorted (fun (a b : DTree × Nat) => decide (a.2 ≤ b.2)) tuples = S at h hsorted hperm
  by_cases hany : (S.any (fun s => decide (s.2 = p))) = true
  · rw [if_pos hany] at h; cases h
  rw [if_neg hany] at h
  have hB : ∀ s ∈ S.filter (fun s => decide (s.2 < p)), s.2 < p := fun s hs => by simpa using (List.mem_filter.1 hs).2
  have hA : ∀ s ∈ S.filter (fun s => !decide (s.2 < p)), p < s.2 := by
    intro s hs
    obtain ⟨h1, h2⟩ := List.mem_filter.1 hs
    have h3 : s.2 ≠ p := by
      intro e
      exact hany (List.any_eq_true.2 ⟨s, h1, by simpa using e⟩)
    simp at h2
    omega
  have hBA : (S.filter (fun s => decide (s.2 < p)) ++ S.filter (fun s => !decide (s.2 < p))).Perm S := List.filter_append_perm _ _
  have hsB := hsorted.sublist (List.filter_sublist (p := fun s => decide (s.2 < p)))
  have hsA := hsorted.sublist (List.filter_sublist (p := fun s => !decide (s.2 < p)))
  generalize S.filter (fun s => decide (s.2 < p)) = B at *
  generalize S.filter (fun s => !decide (s.2 < p)) = A at *
  have hallperm : ((B ++ A).map Prod.fst).Perm sats := hfst ▸ (hBA.trans hperm).map Prod.fst
  have hconv : d.convertSchema nuc p (if DTree.heightAll (B.map Prod.fst) ≥ DTree.heightAll (A.map Prod.fst) then B.reverse ++ A else A ++ B.reverse) = .ok t := by
    rw [List.map_reverse, DTree.heightAll_reverse] at h
    split at h
    · rename_i hh; rw [if_pos hh]; exact h
    · rename_i hh; rw [if_neg hh]; exact h
  have hmem : ∀ s, s ∈ (if DTree.heightAll (B.map Prod.fst) ≥ DTree.heightAll (A.map Prod.fst) then B.reverse ++ A else A ++ B.reverse) ↔ s ∈ B ++ A := by
    intro s
    split <;> simp [or_comm]
  have hne2 : (if DTree.heightAll (B.map Prod.fst) ≥ DTree.heightAll (A.map Prod.fst) then B.reverse ++ A else A ++ B.reverse) ≠ [] := by
    intro e
    apply hne
    have : B ++ A = [] := by
      rw [List.eq_nil_iff_forall_not_mem]
      intro s hs
      rw [← hmem, e] at hs
      cases hs
    rw [this] at hallperm
    exact hallperm.nil_eq.symm
  obtain ⟨hrel, _, hcomb⟩ := convertSchema_ok _ hne2 hconv
  have hmapB : B.reverse.map (fun s => (relOf d s.1, s.1.plain, decide (s.2 < p))) = B.reverse.map (fun s => (relOf d s.1, s.1.plain, true)) :=
    List.map_congr_left (fun s hs => by rw [decide_eq_true (hB s (List.mem_reverse.1 hs))])
  have hmapA : A.map (fun s => (relOf d s.1, s.1.plain, decide (s.2 < p))) = A.map (fun s => (relOf d s.1, s.1.plain, false)) :=
    List.map_congr_left (fun s hs => by rw [decide_eq_false (by have := hA s hs; omega)])
  have hcomb2 : Combined nuc.plain
        (if DTree.heightAll (B.map Prod.fst) ≥ DTree.heightAll (A.map Prod.fst)
          then B.reverse.map (fun s => (relOf d s.1, s.1.plain, true)) ++ A.map (fun s => (relOf d s.1, s.1.plain, false))
          else A.map (fun s => (relOf d s.1, s.1.plain, false)) ++ B.reverse.map (fun s => (relOf d s.1, s.1.plain, true))) t.plain := by
    rw [← hmapB, ← hmapA]
    split at hcomb
    · rename_i hh; rw [if_pos hh, ← List.map_append]; exact hcomb
    · rename_i hh; rw [if_neg hh, ← List.map_append]; exact hcomb
  refine ⟨p, B, A, relOf d, linearPosition_ok.1 hp, hallperm, ?_, hB, hA, ?_, ?_, ?_, hcomb2, ?_⟩
  · intro s hs
    exact hpos s ((hBA.trans hperm).mem_iff.1 hs)
  · exact hsB.imp (fun h => by simpa using h)
  · exact hsA.imp (fun h => by simpa using h)
  · intro s hs
    obtain ⟨x, hx, rfl⟩ := List.mem_map.1 (hallperm.mem_iff.2 hs)
    exact hrel x ((hmem x).2 hx)
  · have hl := hcomb2.leaves
    rw [DTree.leaves_plain, DTree.leaves_plain] at hl
    rw [hl]
    have e1 : ∀ X : List (DTree × Nat), (X.map (fun s => (relOf d s.1, s.1.plain, true))).filter (fun s => s.2.2) = X.map (fun s => (relOf d s.1, s.1.plain, true)) :=
      fun X => List.filter_eq_self.2 (by simp)
    have e2 : ∀ X : List (DTree × Nat), (X.map (fun s => (relOf d s.1, s.1.plain, false))).filter (fun s => s.2.2) = [] :=
      fun X => List.filter_eq_nil_iff.2 (by simp)
    have e3 : ∀ X : List (DTree × Nat), (X.map (fun s => (relOf d s.1, s.1.plain, true))).filter (fun s => !s.2.2) = [] :=
      fun X => List.filter_eq_nil_iff.2 (by simp)
    have e4 : ∀ X : List (DTree × Nat), (X.map (fun s => (relOf d s.1, s.1.plain, false))).filter (fun s => !s.2.2) = X.map (fun s => (relOf d s.1, s.1.plain, false)) :=
      fun X => List.filter_eq_self.2 (by simp)
    split
    · rw [List.reverse_append, ← List.map_reverse, ← List.map_reverse, List.reverse_reverse, List.filter_append, List.filter_append, e1, e2, e3, e4]
      simp [List.flatMap_map, DTree.leaves_plain]
    · rw [List.reverse_append, ← List.map_reverse, ← List.map_reverse, List.reverse_reverse, List.filter_append, List.filter_append, e1, e2, e3, e4]
      simp [List.flatMap_map, DTree.leaves_plain]

/-- **C37** no EDU is lost or duplicated -/
theorem c37_edus {d : Rs3Data} {nuc : DTree} {sats : List DTree} {t : DTree} (h : d.orderSchema nuc sats = .ok t) :
    t.leaves.Perm (nuc.leaves ++ sats.flatMap DTree.leaves) := by
  by_cases hne : sats = []
  · subst hne
    unfold orderSchema at h
    cases hp : d.linearPosition nuc with
    | error e => rw [hp] at h; cases h
    | ok p => rw [hp] at h; cases h; simp
  obtain ⟨p, B, A, name, _, hperm, _, _, _, _, _, _, _, hl⟩ := c37_schema hne h
  rw [hl]
  have h2 := hperm.flatMap_right DTree.leaves
  rw [List.flatMap_map, List.flatMap_append] at h2
  refine List.Perm.trans ?_ (List.Perm.append_left _ h2)
  rw [← List.append_assoc]
  exact List.Perm.append_right _ List.perm_append_comm

theorem startsAt_of_getElem? {texts leaves : List (List Char)} (hnd : texts.Nodup) {s : List Char} (hs : leaves.head? = some s) {p : Nat} (hp : texts[p]? = some s) :
    StartsAt texts leaves p := by
  refine ⟨s, hs, hp, fun j hj e => ?_⟩
  obtain ⟨h1, e1⟩ := List.getElem?_eq_some_iff.1 hp
  obtain ⟨h2, e2⟩ := List.getElem?_eq_some_iff.1 e
  have := (List.nodup_iff_injective_getElem.1 hnd) (a₁ := ⟨j, h2⟩) (a₂ := ⟨p, h1⟩) (by simp [e1, e2])
  simp at this
  omega

/-- `a` starts before `b` -/
def StartsBefore (texts : List (List Char)) (a b : DTree) : Prop := ∃ p q, StartsAt texts a.leaves p ∧ StartsAt texts b.leaves q ∧ p < q

theorem parts_start {texts : List (List Char)} (hnd : texts.Nodup) {r : List (List Char)} (parts : List DTree) (hne : ∀ t ∈ parts, t.leaves ≠ []) :
    ∀ (l : List (List Char)), texts = l ++ parts.flatMap DTree.leaves ++ r →
      (∀ t ∈ parts, ∃ p, StartsAt texts t.leaves p ∧ l.length ≤ p) ∧ parts.Pairwise (StartsBefore texts) := by
  induction parts with
  | nil => intro l _; simp
  | cons t ts ih =>
    intro l htext
    obtain ⟨h1, h2⟩ := ih (fun t ht => hne t (List.mem_cons_of_mem _ ht)) (l ++ t.leaves) (by rw [htext]; simp)
    have h0 : StartsAt texts t.leaves l.length := by
      cases hl : t.leaves with
      | nil => exact absurd hl (hne t (by simp))
      | cons s rest =>
        refine startsAt_of_getElem? hnd (s := s) rfl ?_
        rw [htext, List.flatMap_cons, hl]
        simp
    have hlen : 0 < t.leaves.length := List.length_pos_of_ne_nil (hne t (by simp))
    refine ⟨fun x hx => ?_, List.pairwise_cons.2 ⟨fun x hx => ?_, h2⟩⟩
    · rcases List.mem_cons.1 hx with rfl | hx
      · exact ⟨_, h0, Nat.le_refl _⟩
      · obtain ⟨p, hp, hle⟩ := h1 x hx
        exact ⟨p, hp, by rw [List.length_append] at hle; omega⟩
    · obtain ⟨p, hp, hle⟩ := h1 x hx
      exact ⟨_, _, h0, hp, by rw [List.length_append] at hle; omega⟩

/-- **C37** If no two EDUs have the same text, the result has the EDUs in text order: if the nucleus and the satellites (in some order: `parts`) cover adjacent parts of the text,
the leaves of the result are this part of the text. -/
theorem c37_text_order_partial {d : Rs3Data} {nuc : DTree} {sats : List DTree} {t : DTree} (h : d.orderSchema nuc sats = .ok t) (hnd : d.eduStrings.Nodup)
    {parts : List DTree} (hp' : parts.Perm (nuc :: sats)) {l r : List (List Char)} (htext : d.eduStrings = l ++ parts.flatMap DTree.leaves ++ r) :
    t.leaves = parts.flatMap DTree.leaves := by
  by_cases hsats : sats = []
  · subst hsats
    unfold orderSchema at h
    cases hp : d.linearPosition nuc with
    | error e => rw [hp] at h; cases h
    | ok p =>
      rw [hp] at h; cases h
      rw [List.perm_singleton.1 hp']
      simp
  obtain ⟨p, B, A, name, hnuc, hperm, hpos, hB, hA, hsB, hsA, _, _, hl⟩ := c37_schema hsats h
  have hmine : (B.map Prod.fst ++ nuc :: A.map Prod.fst).Perm parts := by
    refine List.Perm.trans ?_ hp'.symm
    refine List.perm_middle.trans (List.Perm.cons _ ?_)
    rw [← List.map_append]
    exact hperm
  have hne : ∀ t ∈ parts, t.leaves ≠ [] := by
    intro t ht e
    rcases List.mem_cons.1 (hp'.mem_iff.1 ht) with rfl | ht
    · obtain ⟨s, hs, _⟩ := hnuc
      rw [e] at hs; cases hs
    · obtain ⟨x, hx, rfl⟩ := List.mem_map.1 (hperm.mem_iff.2 ht)
      obtain ⟨s, hs, _⟩ := hpos x hx
      rw [e] at hs; cases hs
  obtain ⟨_, hpw⟩ := parts_start hnd parts hne l htext
  have hdist : (B.map Prod.fst ++ nuc :: A.map Prod.fst).Pairwise (fun a b => ∀ p q, StartsAt d.eduStrings a.leaves p → StartsAt d.eduStrings b.leaves q → p ≠ q) := by
    have h1 : parts.Pairwise (fun a b => ∀ p q, StartsAt d.eduStrings a.leaves p → StartsAt d.eduStrings b.leaves q → p ≠ q) := by
      refine hpw.imp ?_
      rintro a b ⟨p, q, h1, h2, h3⟩ p' q' h1' h2' rfl
      have := h1.unique h1'
      have := h2.unique h2'
      omega
    exact (hmine.pairwise_iff (fun {a b} hab p q hp hq e => hab q p hq hp e.symm)).2 h1
  have hmono : (B.map Prod.fst ++ nuc :: A.map Prod.fst).Pairwise (StartsBefore d.eduStrings) := by
    rw [List.pairwise_append, List.pairwise_cons] at hdist ⊢
    obtain ⟨hdB, ⟨_, hdA⟩, _⟩ := hdist
    rw [List.pairwise_map] at hdB hdA ⊢
    rw [List.pairwise_map]
    refine ⟨?_, ⟨?_, ?_⟩, ?_⟩
    · refine (List.Pairwise.and_mem.1 (hsB.and hdB)).imp ?_
      rintro a b ⟨ha, hb, hle, hne⟩
      have h1 := hpos a (by simp [ha])
      have h2 := hpos b (by simp [hb])
      exact ⟨_, _, h1, h2, by have := hne _ _ h1 h2; omega⟩
    · intro x hx
      obtain ⟨a, ha, rfl⟩ := List.mem_map.1 hx
      exact ⟨_, _, hnuc, hpos a (by simp [ha]), hA a ha⟩
    · refine (List.Pairwise.and_mem.1 (hsA.and hdA)).imp ?_
      rintro a b ⟨ha, hb, hle, hne⟩
      have h1 := hpos a (by simp [ha])
      have h2 := hpos b (by simp [hb])
      exact ⟨_, _, h1, h2, by have := hne _ _ h1 h2; omega⟩
    · intro x hx y hy
      obtain ⟨a, ha, rfl⟩ := List.mem_map.1 hx
      rcases List.mem_cons.1 hy with rfl | hy
      · exact ⟨_, _, hpos a (by simp [ha]), hnuc, hB a ha⟩
      · obtain ⟨b, hb, rfl⟩ := List.mem_map.1 hy
        exact ⟨_, _, hpos a (by simp [ha]), hpos b (by simp [hb]), Nat.lt_trans (hB a ha) (hA b hb)⟩
  have heq : B.map Prod.fst ++ nuc :: A.map Prod.fst = parts := by
    refine List.Perm.eq_of_pairwise (fun a b _ _ h1 h2 => ?_) hmono hpw hmine
    obtain ⟨p1, q1, ha, hb, h1⟩ := h1
    obtain ⟨p2, q2, hb2, ha2, h2⟩ := h2
    have := ha.unique ha2
    have := hb.unique hb2
    omega
  rw [hl, ← heq]
  simp [List.flatMap_map]

/-- **C37** order_schema only fails if a subtree has no EDU that is in the file, if a satellite has the same position as the nucleus or if a satellite has no relation name -/
theorem c37_total {d : Rs3Data} {nuc : DTree} {sats : List DTree} {p : Nat} (hn : StartsAt d.eduStrings nuc.leaves p)
    (hs : ∀ s ∈ sats, ∃ q, StartsAt d.eduStrings s.leaves q ∧ q ≠ p) (hr : ∀ s ∈ sats, ∃ name, d.relname s.rootId = some name) :
    ∃ t, d.orderSchema nuc sats = .ok t := by
  obtain ⟨tuples, ht⟩ := mapE_total (f := fun s => (do return (s, ← d.linearPosition s) : Except PyErr (DTree × Nat))) (xs := sats) (fun s hs' => by
    obtain ⟨q, hq, _⟩ := hs s hs'
    exact ⟨(s, q), by rw [linearPosition_ok.2 hq]; rfl⟩)
  obtain ⟨hfst, hpos⟩ := satPositions ht
  have hmem : ∀ x ∈ pySorted (fun (a b : DTree × Nat) => decide (a.2 ≤ b.2)) tuples, x.1 ∈ sats ∧ StartsAt d.eduStrings x.1.leaves x.2 := by
    intro x hx
    rw [mem_pySorted] at hx
    exact ⟨hfst ▸ List.mem_map_of_mem hx, hpos x hx⟩
  unfold orderSchema
  rw [linearPosition_ok.2 hn, ht, except_bind_ok, except_bind_ok]
  dsimp only
  generalize pySorted (fun (a b : DTree × Nat) => decide (a.2 ≤ b.2)) tuples = S at hmem ⊢
  have hany : ¬ (S.any (fun s => decide (s.2 = p))) = true := by
    intro e
    obtain ⟨x, hx, e⟩ := List.any_eq_true.1 e
    obtain ⟨h1, h2⟩ := hmem x hx
    obtain ⟨q, hq, hne⟩ := hs x.1 h1
    rw [h2.unique hq] at e
    simp at e
    exact hne e
  rw [if_neg hany]
  split
  · refine convertSchema_total _ (fun s hs => hr s.1 (hmem s ?_).1)
    rcases List.mem_append.1 hs with hs | hs
    · exact List.mem_of_mem_filter (List.mem_reverse.1 hs)
    · exact List.mem_of_mem_filter hs
  · refine convertSchema_total _ (fun s hs => hr s.1 (hmem s ?_).1)
    rcases List.mem_append.1 hs with hs | hs
    · exact List.mem_of_mem_filter hs
    · exact List.mem_of_mem_filter (List.mem_reverse.1 hs)

/-- the data of a file with EDUs a, b, c, d, e, where 3 (c) is the nucleus of the other segments -/
def c37Data (texts : List (List Char)) : Rs3Data :=
  let ids : List (List Char) := [['1'], ['2'], ['3'], ['4'], ['5']]
  { children := [(none, [['3']]), (some ['3'], [['1'], ['2'], ['4'], ['5']])],
    elems := (ids.zip texts).map (fun x => (x.1, ⟨if x.1 = ['3'] then none else some ['3'], if x.1 = ['3'] then none else some ('r' :: x.1),
      if x.1 = ['3'] then none else some .rst, if x.1 = ['3'] then .root else .satellite, .inl x.2⟩)),
    edus := ids }

/-- the satellite with this ID and text -/
def c37Sat (i text : Char) : DTree := .node ['S'] (some [i]) [.leaf [text]]

/-- two satellites before and two after the nucleus, given in another order: the ones before it are combined first, from the inside to the outside -/
example : ((c37Data [['a'], ['b'], ['c'], ['d'], ['e']]).orderSchema (.node ['N'] (some ['3']) [.leaf ['c']])
      [c37Sat '5' 'e', c37Sat '1' 'a', c37Sat '4' 'd', c37Sat '2' 'b']).map DTree.leaves = .ok [['a'], ['b'], ['c'], ['d'], ['e']] := by decide +kernel

example : (c37Data [['a'], ['b'], ['c'], ['d'], ['e']]).orderSchema (.node ['N'] (some ['3']) [.leaf ['c']])
      [c37Sat '5' 'e', c37Sat '1' 'a', c37Sat '4' 'd', c37Sat '2' 'b'] =
    .ok (.node ['r', '5'] (some ['3']) [.node ['N'] (some ['3']) [.node ['r', '4'] none [.node ['N'] (some ['3']) [.node ['r', '1'] none [c37Sat '1' 'a',
      .node ['N'] (some ['3']) [.node ['r', '2'] none [c37Sat '2' 'b', .node ['N'] (some ['3']) [.leaf ['c']]]]]], c37Sat '4' 'd']], c37Sat '5' 'e']) := by rfl

/-- **C37** (violation) if an EDU text occurs twice, the EDUs are reordered: the last satellite (x) follows the nucleus but is put before it because its text also occurs before it -/
theorem c37_fails_duplicate_text : ∃ t, (c37Data [['x'], ['b'], ['c'], ['d'], ['x']]).orderSchema (.node ['N'] (some ['3']) [.leaf ['c']]) [c37Sat '4' 'd', c37Sat '5' 'x'] = .ok t ∧
    t.leaves = [['x'], ['c'], ['d']] := ⟨_, rfl, by decide +kernel⟩

/-- **C37** (violation) if a satellite has the same text as its nucleus, reading fails -/
theorem c37_fails_equal_text : (match (c37Data [['a'], ['b'], ['c'], ['c'], ['e']]).orderSchema (.node ['N'] (some ['3']) [.leaf ['c']]) [c37Sat '1' 'a', c37Sat '4' 'c'] with
    | .ok _ => none
    | .error e => some e) = some .assertion := by decide +kernel

end Dg
