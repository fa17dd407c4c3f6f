import Verif.Lemmas.Rs3Rep

/-! Heights, positions and sorting of the elements of a written .rs3 file. -/

namespace Dg
open Rst Rs3Writer Rs3Data
open DG (mapE mapE_ok mapE_total)

theorem mapE_perm {α β : Type} {f : α → Except PyErr β} {xs xs' : List α} (hp : xs'.Perm xs) : ∀ {ys : List β}, mapE f xs = .ok ys →
    ∃ ys', mapE f xs' = .ok ys' ∧ ys'.Perm ys := by
  induction hp with
  | nil => intro ys h; exact ⟨ys, h, .refl _⟩
  | @cons x l1 l2 _ ih =>
    intro ys h
    rw [mapE_ok] at h
    cases h with
    | @cons _ y _ ys h1 h2 =>
      obtain ⟨ys', h3, h4⟩ := ih (mapE_ok.2 h2)
      exact ⟨y :: ys', mapE_ok.2 (.cons h1 (mapE_ok.1 h3)), h4.cons y⟩
  | @swap x y l =>
    intro ys h
    rw [mapE_ok] at h
    cases h with
    | @cons _ a _ ys h1 h2 =>
      cases h2 with
      | @cons _ b _ ys h2 h3 =>
        exact ⟨b :: a :: ys, mapE_ok.2 (.cons h2 (.cons h1 h3)), .swap a b ys⟩
  | trans _ _ ih1 ih2 =>
    intro ys h
    obtain ⟨ys1, h1, p1⟩ := ih2 h
    obtain ⟨ys2, h2, p2⟩ := ih1 h1
    exact ⟨ys2, h2, p2.trans p1⟩

theorem foldl_min (xs : List Nat) : ∀ x, (xs.foldl min x = x ∨ xs.foldl min x ∈ xs) ∧ xs.foldl min x ≤ x ∧ ∀ y ∈ xs, xs.foldl min x ≤ y := by
  induction xs with
  | nil => intro x; simp
  | cons z xs ih =>
    intro x
    obtain ⟨h1, h2, h3⟩ := ih (min x z)
    rw [List.foldl_cons]
    refine ⟨?_, by omega, ?_⟩
    · rcases h1 with h1 | h1
      · rw [h1]
        rcases Nat.le_total x z with h | h
        · left; omega
        · right; rw [Nat.min_eq_right h]; exact List.mem_cons_self
      · right; exact List.mem_cons_of_mem _ h1
    · intro y hy
      rcases List.mem_cons.1 hy with rfl | hy
      · omega
      · exact h3 y hy

theorem minE_ok {xs : List Nat} {m : Nat} : minE xs = .ok m ↔ m ∈ xs ∧ ∀ x ∈ xs, m ≤ x := by
  cases xs with
  | nil => simp [minE]
  | cons x xs =>
    obtain ⟨h1, h2, h3⟩ := foldl_min xs x
    show Except.ok (xs.foldl min x) = Except.ok m ↔ _
    constructor
    · intro e
      cases e
      refine ⟨?_, ?_⟩
      · rcases h1 with h1 | h1
        · rw [h1]; simp
        · exact List.mem_cons_of_mem _ h1
      · intro y hy
        rcases List.mem_cons.1 hy with rfl | hy
        · exact h2
        · exact h3 y hy
    · rintro ⟨h4, h5⟩
      congr 1
      have : xs.foldl min x ≤ m := by
        rcases List.mem_cons.1 h4 with rfl | h4
        · exact h2
        · exact h3 m h4
      have : m ≤ xs.foldl min x := by
        rcases h1 with h1 | h1
        · rw [h1]; exact h5 x (by simp)
        · exact h5 _ (List.mem_cons_of_mem _ h1)
      omega

theorem minE_perm_append {xs pes ys : List Nat} {p : Nat} (hp : ys.Perm (xs ++ pes)) (h : minE xs = .ok p) : minE ys = .ok (pes.foldl min p) := by
  rw [minE_ok] at h ⊢
  obtain ⟨h1, h2, h3⟩ := foldl_min pes p
  refine ⟨?_, ?_⟩
  · rw [hp.mem_iff, List.mem_append]
    rcases h1 with h1 | h1
    · rw [h1]; exact .inl h.1
    · exact .inr h1
  · intro y hy
    rw [hp.mem_iff, List.mem_append] at hy
    rcases hy with hy | hy
    · have := h.2 y hy; omega
    · exact h3 y hy

/-- the number of steps from an element to the top -/
inductive HasHeight (d : Rs3Data) : List Char → Nat → Prop
  | root {i : List Char} {e : Rs3Elem} : Dict.find d.elems i = some e → e.parent = none → HasHeight d i 1
  | child {i p : List Char} {e : Rs3Elem} {h : Nat} : Dict.find d.elems i = some e → e.parent = some p → HasHeight d p h → HasHeight d i (h + 1)

theorem heightFrom_of {d : Rs3Data} {i : List Char} {h : Nat} (hh : HasHeight d i h) : ∀ f, h ≤ f → d.heightFrom f (some i) = .ok h := by
  induction hh with
  | @root i e h1 h2 =>
    intro f hf
    obtain ⟨f, rfl⟩ : ∃ g, f = g + 1 := ⟨f - 1, by omega⟩
    rw [heightFrom, h1]
    dsimp only
    rw [h2]
    cases f <;> rfl
  | @child i p e h h1 h2 _ ih =>
    intro f hf
    obtain ⟨f, rfl⟩ : ∃ g, f = g + 1 := ⟨f - 1, by omega⟩
    rw [heightFrom, h1]
    dsimp only
    rw [h2, ih f (by omega)]
    rfl

theorem nodeHeight_of {d : Rs3Data} {i : List Char} {h : Nat} (hh : HasHeight d i h) (hl : h ≤ d.elems.length) : d.nodeHeight (some i) = .ok h := by
  unfold nodeHeight
  have : Dict.has d.elems i = true := by
    rw [Dict.has_iff, Dict.mem_keys_iff]
    cases hh with
    | root h1 _ => exact ⟨_, h1⟩
    | child h1 _ _ => exact ⟨_, h1⟩
  dsimp only
  rw [if_pos this]
  exact heightFrom_of hh _ hl

/-- sorting trees with different positions -/
theorem sortSubtrees_sorted {d : Rs3Data} {ts ts' : List DTree} {ps : List Nat} (hp : ts'.Perm ts) (hh : ∀ t ∈ ts, ∃ h, d.nodeHeight t.rootId = .ok h)
    (hpos : List.Forall₂ (fun t p => d.position (d.elems.length + 1) t.rootId = .ok p) ts ps) (hps : ps.Pairwise (· < ·)) : d.sortSubtrees ts' = .ok ts := by
  obtain ⟨hs, h1⟩ := mapE_total (f := fun t => (do return (← d.nodeHeight t.rootId, t) : Except PyErr (Nat × DTree))) (xs := ts') (fun t ht => by
    obtain ⟨h, e⟩ := hh t (hp.mem_iff.1 ht)
    exact ⟨(h, t), by rw [e]; rfl⟩)
  have hsnd : ∀ (f : DTree → Except PyErr Nat) (xs : List DTree) (ys : List (Nat × DTree)), mapE (fun t => (do return (← f t, t) : Except PyErr (Nat × DTree))) xs = .ok ys →
      ys.map Prod.snd = xs := by
    intro f xs ys h
    refine forall₂_map_self (mapE_ok.1 h) Prod.snd ?_
    intro x y hxy
    cases hf : f x with
    | error e => rw [hf] at hxy; cases hxy
    | ok v => rw [hf] at hxy; cases hxy; rfl
  have hdesc : ((pySorted (fun a b => decide (b.1 ≤ a.1)) hs).map Prod.snd).Perm ts := by
    refine ((pySorted_perm hs).map Prod.snd).trans ?_
    rw [hsnd _ _ _ h1]
    exact hp
  have h2 : mapE (fun t => (do return (← d.position (d.elems.length + 1) t.rootId, t) : Except PyErr (Nat × DTree))) ts = .ok (List.zip ps ts) := by
    rw [mapE_ok]
    clear hps hh hdesc h1 hp
    induction hpos with
    | nil => exact .nil
    | cons h _ ih => exact .cons (by rw [h]; rfl) ih
  obtain ⟨P, h3, h4⟩ := mapE_perm hdesc h2
  unfold sortSubtrees
  rw [h1, except_bind_ok]
  dsimp only
  rw [h3, except_bind_ok]
  show Except.ok _ = _
  congr 1
  have hlen : ps.length = ts.length := hpos.length_eq.symm
  have hz : (List.zip ps ts).Pairwise (fun a b => a.1 < b.1) := by
    have : ((List.zip ps ts).map Prod.fst).Pairwise (· < ·) := by rw [List.map_fst_zip (by omega)]; exact hps
    exact List.pairwise_map.1 this
  have heq : pySorted (fun a b => decide (a.1 ≤ b.1)) P = List.zip ps ts := by
    refine List.Perm.eq_of_pairwise (le := fun a b => a.1 ≤ b.1) ?_ ?_ (hz.imp (fun h => by omega)) ((pySorted_perm P).trans h4)
    · intro a b ha hb h5 h6
      have ha := ((pySorted_perm P).trans h4).mem_iff.1 ha
      obtain ⟨i, hi, rfl⟩ := List.getElem_of_mem ha
      obtain ⟨j, hj, rfl⟩ := List.getElem_of_mem hb
      have hij := List.pairwise_iff_getElem.1 hz
      rcases Nat.lt_trichotomy i j with h | h | h
      · have := hij i j hi hj h; omega
      · subst h; rfl
      · have := hij j i hj hi h; omega
    · have := pySorted_sorted (le := fun (a b : Nat × DTree) => decide (a.1 ≤ b.1)) (by intro a b; simp only [decide_eq_true_eq]; omega)
        (by intro a b c h1 h2; simp only [decide_eq_true_eq] at *; omega) P
      exact this.imp (fun h => by simpa using h)
  rw [heq, List.map_snd_zip (by omega)]

/-- sorting a nucleus and its satellite, which is one step further from the top -/
theorem sortSubtrees_two {d : Rs3Data} {nuc sat : DTree} {h pn ps : Nat} (h1 : d.nodeHeight nuc.rootId = .ok h) (h2 : d.nodeHeight sat.rootId = .ok (h + 1))
    (p1 : d.position (d.elems.length + 1) nuc.rootId = .ok pn) (p2 : d.position (d.elems.length + 1) sat.rootId = .ok ps) :
    d.sortSubtrees [nuc, sat] = .ok (if ps ≤ pn then [sat, nuc] else [nuc, sat]) := by
  unfold sortSubtrees
  have e1 : mapE (fun t => (do return (← d.nodeHeight t.rootId, t) : Except PyErr (Nat × DTree))) [nuc, sat] = .ok [(h, nuc), (h + 1, sat)] := by
    rw [mapE_ok]
    exact .cons (by rw [h1]; rfl) (.cons (by rw [h2]; rfl) .nil)
  have e2 : mapE (fun t => (do return (← d.position (d.elems.length + 1) t.rootId, t) : Except PyErr (Nat × DTree))) [sat, nuc] = .ok [(ps, sat), (pn, nuc)] := by
    rw [mapE_ok]
    exact .cons (by rw [p2]; rfl) (.cons (by rw [p1]; rfl) .nil)
  rw [e1, except_bind_ok]
  have e3 : (pySorted (fun a b => decide (b.1 ≤ a.1)) [(h, nuc), (h + 1, sat)]).map Prod.snd = [sat, nuc] := by
    have : ¬ (h + 1 ≤ h) := by omega
    simp [pySorted, insertSorted, this]
  rw [e3]
  dsimp only
  rw [e2, except_bind_ok]
  show Except.ok _ = _
  congr 1
  by_cases hc : ps ≤ pn
  · simp [pySorted, insertSorted, hc]
  · simp [pySorted, insertSorted, hc]

theorem sortedNucsat_eq {d : Rs3Data} {nuc sat : DTree} {h pn ps : Nat} {name : List Char} (h1 : d.nodeHeight nuc.rootId = .ok h) (h2 : d.nodeHeight sat.rootId = .ok (h + 1))
    (p1 : d.position (d.elems.length + 1) nuc.rootId = .ok pn) (p2 : d.position (d.elems.length + 1) sat.rootId = .ok ps) (hr : d.relname sat.rootId = some name) :
    d.sortedNucsat nuc sat = .ok (.node name nuc.rootId (if ps ≤ pn then [sat, nuc] else [nuc, sat])) := by
  unfold sortedNucsat
  rw [sortSubtrees_two h1 h2 p1 p2, except_bind_ok, hr]
  rfl

/-- a schema with one satellite -/
theorem orderSchema_one {d : Rs3Data} {nuc sat : DTree} {pn ps : Nat} {name : List Char} (hn : StartsAt d.eduStrings nuc.leaves pn) (hs : StartsAt d.eduStrings sat.leaves ps)
    (hne : ps ≠ pn) (hr : d.relname sat.rootId = some name) : d.orderSchema nuc [sat] = .ok (.node name nuc.rootId (if ps < pn then [sat, nuc] else [nuc, sat])) := by
  unfold orderSchema
  have e2 : mapE (fun s => (do return (s, ← d.linearPosition s) : Except PyErr (DTree × Nat))) [sat] = .ok [(sat, ps)] := by
    rw [mapE_ok]
    exact .cons (by rw [linearPosition_ok.2 hs]; rfl) .nil
  rw [linearPosition_ok.2 hn, except_bind_ok, e2, except_bind_ok]
  have e3 : pySorted (fun a b => decide (a.2 ≤ b.2)) [(sat, ps)] = [(sat, ps)] := rfl
  rw [e3]
  have hany : ¬ ([(sat, ps)].any (fun s => decide (s.2 = pn)) = true) := by simpa using hne
  dsimp only
  rw [if_neg hany]
  have hcs : ∀ xs, xs = [(sat, ps)] → d.convertSchema nuc pn xs = .ok (.node name nuc.rootId (if ps < pn then [sat, nuc] else [nuc, sat])) := by
    rintro xs rfl
    rw [convertSchema, hr]
    rfl
  have L1 : ([(sat, ps)].filter (fun s => decide (s.2 < pn))).reverse ++ [(sat, ps)].filter (fun s => !decide (s.2 < pn)) = [(sat, ps)] := by
    by_cases hc : ps < pn <;> simp [hc]
  have L2 : [(sat, ps)].filter (fun s => !decide (s.2 < pn)) ++ ([(sat, ps)].filter (fun s => decide (s.2 < pn))).reverse = [(sat, ps)] := by
    by_cases hc : ps < pn <;> simp [hc]
  rw [L1, L2, ite_self]
  exact hcs _ rfl

end Dg
