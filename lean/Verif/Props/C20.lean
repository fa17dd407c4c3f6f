import Verif.Lemmas.Text

/-! C20: natural_sort_key orders numbered IDs numerically. -/

namespace Dg

/-- **C20 (total preorder)**.  The order induced by `natural_sort_key` is total and transitive on all IDs. -/
theorem c20_total_preorder :
    (∀ a b, naturalLe a b = true ∨ naturalLe b a = true) ∧
    (∀ a b c, naturalLe a b = true → naturalLe b c = true → naturalLe a c = true) :=
  ⟨naturalLe_total, naturalLe_trans⟩

/-- **C20 (stable sort)**.  `sorted(ids, key=natural_sort_key)` is a permutation of `ids`, is ordered, and keeps the relative order of IDs with
equal keys. -/
theorem c20_sorted (ids : List NodeId) :
    (naturalSorted ids).Perm ids ∧ (naturalSorted ids).Pairwise (fun a b => naturalLe a b = true) ∧
    ∀ k, (naturalSorted ids).filter (fun x => decide (naturalSortKey x = naturalSortKey k)) =
      ids.filter (fun x => decide (naturalSortKey x = naturalSortKey k)) := by
  refine ⟨pySorted_perm ids, pySorted_sorted naturalLe_total naturalLe_trans ids, fun k => ?_⟩
  have h := pySorted_stable (le := naturalLe) naturalLe_trans k ids
  have he : (fun x => decide (naturalSortKey x = naturalSortKey k)) = equivTo naturalLe k := by
    funext x
    rw [Bool.eq_iff_iff]
    simp only [decide_eq_true_eq, equivTo, Bool.and_eq_true]
    constructor
    · intro hx; unfold naturalLe; rw [hx]; exact ⟨lexLe_refl _, lexLe_refl _⟩
    · rintro ⟨h1, h2⟩; exact naturalLe_antisymm_key _ _ h2 h1
  rw [he]; exact h

theorem takeWhile_append_all {α : Type} (p : α → Bool) (a b : List α) (h : ∀ x ∈ a, p x = true) (hb : ∀ x, b.head? = some x → p x = false) :
    (a ++ b).takeWhile p = a ∧ (a ++ b).dropWhile p = b := by
  induction a with
  | nil =>
    cases b with
    | nil => simp
    | cons y b => have := hb y rfl; simp [this]
  | cons x a ih =>
    have hx := h x (by simp)
    have ih := ih (fun y hy => h y (List.mem_cons_of_mem _ hy))
    simp [hx, ih]

/-- splitting `prefix ++ digits` when the prefix does not end in a digit -/
theorem splitDigits_append (fuel : Nat) : ∀ (p ds : List Char), p.length + 1 ≤ fuel →
    (∀ c, p.getLast? = some c → isDigitChar c = false) → (∀ c ∈ ds, isDigitChar c = true) → ds ≠ [] →
    ∃ ks t, splitDigits fuel (p ++ ds) = ks ++ [.str t, .int (parseDec ds), .str []] ∧
      ∀ fuel' ds', p.length + 1 ≤ fuel' → (∀ c ∈ ds', isDigitChar c = true) → ds' ≠ [] →
        splitDigits fuel' (p ++ ds') = ks ++ [.str t, .int (parseDec ds'), .str []] := by
  induction fuel with
  | zero => intro p ds h; omega
  | succ fuel ih =>
    intro p ds hlen hlast hds hne
    -- either p has no digit at all, or it contains one
    have hsplit := List.takeWhile_append_dropWhile (p := fun c => !isDigitChar c) (l := p)
    by_cases hdig : ∀ c ∈ p, isDigitChar c = false
    · have key : ∀ fuel ds', (∀ c ∈ ds', isDigitChar c = true) → ds' ≠ [] →
          splitDigits (fuel + 1) (p ++ ds') = [.str p, .int (parseDec ds'), .str []] := by
        intro fuel ds' hds' hne'
        have h1 := takeWhile_append_all (fun c => !isDigitChar c) p ds' (fun c hc => by simp [hdig c hc]) (by
          intro x hx
          have : x ∈ ds' := List.mem_of_head? hx
          simp [hds' x this])
        unfold splitDigits
        simp only [h1.1, h1.2]
        cases ds' with
        | nil => exact absurd rfl hne'
        | cons d rest =>
          have h2 := takeWhile_append_all isDigitChar (d :: rest) [] hds' (by simp)
          simp only [List.append_nil] at h2
          simp only [h2.1, h2.2]
          cases fuel <;> simp [splitDigits]
      refine ⟨[], p, by simpa using key fuel ds hds hne, ?_⟩
      intro fuel' ds' hf' hds' hne'
      cases fuel' with
      | zero => omega
      | succ f => simpa using key f ds' hds' hne'
    · -- p = q ++ digit run ++ r
      have hdrop : ∃ d rest, p.dropWhile (fun c => !isDigitChar c) = d :: rest ∧ isDigitChar d = true := by
        cases hd : p.dropWhile (fun c => !isDigitChar c) with
        | nil =>
          exfalso; apply hdig
          intro c hc
          rw [hd, List.append_nil] at hsplit
          rw [← hsplit] at hc
          have := List.all_eq_true.1 (List.all_takeWhile (p := fun c => !isDigitChar c) (l := p)) c hc
          simpa using this
        | cons d rest =>
          refine ⟨d, rest, rfl, ?_⟩
          have := List.head?_dropWhile_not (fun c => !isDigitChar c) p
          rw [hd] at this
          simpa using this
      obtain ⟨d, rest, hd, hdd⟩ := hdrop
      let q := p.takeWhile (fun c => !isDigitChar c)
      let r := (d :: rest).dropWhile isDigitChar
      let run := (d :: rest).takeWhile isDigitChar
      have hrun : run ++ r = d :: rest := List.takeWhile_append_dropWhile
      have hrne : r ≠ [] := by
        intro hr
        have hlastp : p.getLast? = (d :: rest).getLast? := by
          rw [← hsplit, hd, List.getLast?_append]; simp [List.getLast?_cons]
        have hmem : ∃ c, (d :: rest).getLast? = some c ∧ c ∈ run := by
          rw [hr, List.append_nil] at hrun
          rw [hrun]
          exact ⟨(d :: rest).getLast (by simp), List.getLast?_eq_some_getLast _, List.getLast_mem _⟩
        obtain ⟨c, hc, hcr⟩ := hmem
        have h1 := hlast c (by rw [hlastp]; exact hc)
        have h2 := List.all_eq_true.1 (List.all_takeWhile (p := isDigitChar) (l := d :: rest)) c hcr
        rw [h1] at h2; simp at h2
      have hrlast : ∀ c, r.getLast? = some c → isDigitChar c = false := by
        intro c hc
        apply hlast
        rw [← hsplit, hd, ← hrun, ← List.append_assoc, List.getLast?_append, hc]; rfl
      have hrlen : r.length + 1 ≤ p.length := by
        have h1 : p.length = q.length + (d :: rest).length := by rw [← hd, ← List.length_append, hsplit]
        have h2 : (d :: rest).length = run.length + r.length := by rw [← List.length_append, hrun]
        have h3 : run.length ≥ 1 := by simp [run, hdd]
        omega
      have step : ∀ f ds', splitDigits (f + 1) (p ++ ds') = .str q :: .int (parseDec run) :: splitDigits f (r ++ ds') := by
        intro f ds'
        have hp : p ++ ds' = q ++ (d :: (rest ++ ds')) := by
          rw [← hsplit, hd]; simp [q]
        have h1 := takeWhile_append_all (fun c => !isDigitChar c) q (d :: (rest ++ ds'))
          (fun c hc => List.all_eq_true.1 (List.all_takeWhile (p := fun c => !isDigitChar c) (l := p)) c hc)
          (by intro x hx; simp at hx; subst hx; simp [hdd])
        have h2 : d :: (rest ++ ds') = run ++ (r ++ ds') := by rw [← List.append_assoc, hrun]; rfl
        have h3 := takeWhile_append_all isDigitChar run (r ++ ds')
          (fun c hc => List.all_eq_true.1 (List.all_takeWhile (p := isDigitChar) (l := d :: rest)) c hc)
          (by
            intro x hx
            have hrh : (r ++ ds').head? = r.head? := by cases hr : r with
              | nil => exact absurd hr hrne
              | cons => rfl
            rw [hrh] at hx
            have := List.head?_dropWhile_not isDigitChar (d :: rest)
            have hx' : (List.dropWhile isDigitChar (d :: rest)).head? = some x := hx
            rw [hx'] at this
            simpa using this)
        rw [hp, splitDigits]
        simp only [h1.1, h1.2]
        rw [h2]
        simp only [h3.1, h3.2]
      obtain ⟨ks, t, h1, h2⟩ := ih r ds (by omega) hrlast hds hne
      refine ⟨.str q :: .int (parseDec run) :: ks, t, by rw [step, h1]; rfl, ?_⟩
      intro fuel' ds' hf' hds' hne'
      cases fuel' with
      | zero => omega
      | succ f => rw [step, h2 f ds' (by omega) hds' hne']; rfl

/-- **C20 (numeric order)**.  For any prefix that does not end in a digit, `prefix + str(a)` sorts at or before `prefix + str(b)` iff `a ≤ b`, and the
keys are equal only if `a = b`. -/
theorem c20_numbered_ids_sort_numerically (p : String) (hp : ∀ c, p.toList.getLast? = some c → isDigitChar c = false) (a b : Nat) :
    (naturalLe (.str (p ++ String.ofList (decimal a))) (.str (p ++ String.ofList (decimal b))) = true ↔ a ≤ b) ∧
    (naturalSortKey (.str (p ++ String.ofList (decimal a))) = naturalSortKey (.str (p ++ String.ofList (decimal b))) ↔ a = b) := by
  have hlen : ∀ n, p.toList.length + 1 ≤ (p.toList ++ decimal n).length := by
    intro n
    have := List.length_pos_iff.2 (decimal_ne_nil n)
    simp only [List.length_append]; omega
  obtain ⟨ks, t, h1, h2⟩ := splitDigits_append _ p.toList (decimal a) (hlen a) hp (decimal_digits a) (decimal_ne_nil a)
  have h3 := h2 _ (decimal b) (hlen b) (decimal_digits b) (decimal_ne_nil b)
  have e1 : naturalSortKey (.str (p ++ String.ofList (decimal a))) = ks ++ [.str t, .int a, .str []] := by
    unfold naturalSortKey NodeId.chars
    simp only [String.toList_append, String.toList_ofList]
    rw [h1, parseDec_decimal]
  have e2 : naturalSortKey (.str (p ++ String.ofList (decimal b))) = ks ++ [.str t, .int b, .str []] := by
    unfold naturalSortKey NodeId.chars
    simp only [String.toList_append, String.toList_ofList]
    rw [h3, parseDec_decimal]
  unfold naturalLe
  rw [e1, e2, lexLe_append]
  constructor
  · by_cases h : a = b
    · subst h; simp [lexLe]
    · simp [lexLe, h, KeyPart.le]
  · simp

/-- The docstring example of util.py. -/
example : naturalSorted [.str "A99", .str "a1", .str "a2", .str "a10", .str "a24", .str "a12", .str "a100"] =
    [.str "A99", .str "a1", .str "a2", .str "a10", .str "a12", .str "a24", .str "a100"] := by decide +kernel

/-- the prefix hypothesis is needed: `"x1" + "2"` and `"x1" + "10"` vs. numbers 2 and 10 is fine, but a prefix ending in a digit merges with
the number: `"x9" + "0"` sorts before `"x9" + "00"` although both numbers are 0, and e.g. `"s1_"` satisfies it -/
example : (∀ c, "s1_".toList.getLast? = some c → isDigitChar c = false) ∧
    naturalLe (.str "s1_9") (.str "s1_10") = true ∧ naturalLe (.str "s1_10") (.str "s1_9") = false ∧
    naturalSortKey (.str "s1_9") = [.str ['s'], .int 1, .str ['_'], .int 9, .str []] := by
  refine ⟨?_, by decide +kernel, by decide +kernel, by decide +kernel⟩
  intro c hc
  simp at hc
  subst hc; decide

end Dg
