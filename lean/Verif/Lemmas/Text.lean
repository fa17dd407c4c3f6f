import Verif.Model.Text

namespace Dg

/-! ### lexicographic order -/
section lex
variable {α : Type} [DecidableEq α] {le : α → α → Bool}

theorem lexLe_refl (as : List α) : lexLe le as as = true := by
  induction as with
  | nil => rfl
  | cons a as ih => simp [lexLe, ih]

theorem lexLe_total (tot : ∀ a b, le a b = true ∨ le b a = true) (as bs : List α) :
    lexLe le as bs = true ∨ lexLe le bs as = true := by
  induction as generalizing bs with
  | nil => left; rfl
  | cons a as ih =>
    cases bs with
    | nil => right; rfl
    | cons b bs =>
      by_cases h : a = b
      · subst h; simpa [lexLe] using ih bs
      · have h' : ¬ b = a := fun e => h e.symm
        simp only [lexLe, h, h', if_false]
        exact tot a b

theorem lexLe_antisymm (anti : ∀ a b, le a b = true → le b a = true → a = b) (as bs : List α)
    (h1 : lexLe le as bs = true) (h2 : lexLe le bs as = true) : as = bs := by
  induction as generalizing bs with
  | nil => cases bs with
    | nil => rfl
    | cons b bs => simp [lexLe] at h2
  | cons a as ih =>
    cases bs with
    | nil => simp [lexLe] at h1
    | cons b bs =>
      by_cases h : a = b
      · subst h; simp only [lexLe, if_true] at h1 h2; rw [ih bs h1 h2]
      · have h' : ¬ b = a := fun e => h e.symm
        simp only [lexLe, h, h', if_false] at h1 h2
        exact absurd (anti a b h1 h2) h

theorem lexLe_trans (tr : ∀ a b c, le a b = true → le b c = true → le a c = true)
    (anti : ∀ a b, le a b = true → le b a = true → a = b) (as bs cs : List α)
    (h1 : lexLe le as bs = true) (h2 : lexLe le bs cs = true) : lexLe le as cs = true := by
  induction as generalizing bs cs with
  | nil => rfl
  | cons a as ih =>
    cases bs with
    | nil => simp [lexLe] at h1
    | cons b bs =>
      cases cs with
      | nil => simp [lexLe] at h2
      | cons c cs =>
        simp only [lexLe] at h1 h2 ⊢
        by_cases hab : a = b
        · subst hab
          simp only [if_true] at h1
          by_cases hac : a = c
          · subst hac; simp only [if_true] at h2 ⊢; exact ih bs cs h1 h2
          · simp only [hac, if_false] at h2 ⊢; exact h2
        · simp only [hab, if_false] at h1
          by_cases hbc : b = c
          · subst hbc; simp only [hab, if_false]; exact h1
          · simp only [hbc, if_false] at h2
            by_cases hac : a = c
            · subst hac; exact absurd (anti _ _ h1 h2) hab
            · simp only [hac, if_false]; exact tr _ _ _ h1 h2

theorem lexLe_append (p as bs : List α) : lexLe le (p ++ as) (p ++ bs) = lexLe le as bs := by
  induction p with
  | nil => rfl
  | cons x p ih => simp [lexLe, ih]
end lex

def charLe (c d : Char) : Bool := decide (c.toNat ≤ d.toNat)

theorem charLe_total (a b : Char) : charLe a b = true ∨ charLe b a = true := by
  simp [charLe]; omega
theorem charLe_trans (a b c : Char) (h1 : charLe a b = true) (h2 : charLe b c = true) : charLe a c = true := by
  simp [charLe] at *; omega
theorem charLe_antisymm (a b : Char) (h1 : charLe a b = true) (h2 : charLe b a = true) : a = b := by
  simp [charLe] at *
  have : a.toNat = b.toNat := by omega
  exact Char.toNat_inj.1 this

theorem keyPartLe_total (a b : KeyPart) : a.le b = true ∨ b.le a = true := by
  cases a <;> cases b <;> simp [KeyPart.le]
  · omega
  · exact lexLe_total charLe_total _ _
theorem keyPartLe_antisymm (a b : KeyPart) (h1 : a.le b = true) (h2 : b.le a = true) : a = b := by
  cases a <;> cases b <;> simp [KeyPart.le] at *
  · omega
  · exact lexLe_antisymm charLe_antisymm _ _ h1 h2
theorem keyPartLe_trans (a b c : KeyPart) (h1 : a.le b = true) (h2 : b.le c = true) : a.le c = true := by
  cases a <;> cases b <;> cases c <;> simp [KeyPart.le] at *
  · omega
  · exact lexLe_trans charLe_trans charLe_antisymm _ _ _ h1 h2

theorem naturalLe_total (a b : NodeId) : naturalLe a b = true ∨ naturalLe b a = true := lexLe_total keyPartLe_total _ _
theorem naturalLe_trans (a b c : NodeId) (h1 : naturalLe a b = true) (h2 : naturalLe b c = true) : naturalLe a c = true :=
  lexLe_trans keyPartLe_trans keyPartLe_antisymm _ _ _ h1 h2
theorem naturalLe_antisymm_key (a b : NodeId) (h1 : naturalLe a b = true) (h2 : naturalLe b a = true) :
    naturalSortKey a = naturalSortKey b := lexLe_antisymm keyPartLe_antisymm _ _ h1 h2

/-! ### stable sort -/
section sort
variable {α : Type} {le : α → α → Bool}

theorem insertSorted_perm (x : α) (ys : List α) : (insertSorted le x ys).Perm (x :: ys) := by
  induction ys with
  | nil => exact List.Perm.refl _
  | cons y ys ih =>
    unfold insertSorted
    split
    · exact List.Perm.refl _
    · exact (List.Perm.cons y ih).trans (List.Perm.swap x y ys)

theorem pySorted_perm (xs : List α) : (pySorted le xs).Perm xs := by
  induction xs with
  | nil => exact List.Perm.refl _
  | cons x xs ih => exact (insertSorted_perm x _).trans (List.Perm.cons x ih)

theorem mem_pySorted (x : α) (xs : List α) : x ∈ pySorted le xs ↔ x ∈ xs := (pySorted_perm xs).mem_iff

theorem insertSorted_sorted (tot : ∀ a b, le a b = true ∨ le b a = true)
    (tr : ∀ a b c, le a b = true → le b c = true → le a c = true) (x : α) (ys : List α)
    (h : ys.Pairwise (fun a b => le a b = true)) : (insertSorted le x ys).Pairwise (fun a b => le a b = true) := by
  induction ys with
  | nil => simp [insertSorted]
  | cons y ys ih =>
    unfold insertSorted
    rw [List.pairwise_cons] at h
    split
    · rename_i hxy
      refine List.pairwise_cons.2 ⟨?_, List.pairwise_cons.2 h⟩
      intro z hz
      rcases List.mem_cons.1 hz with rfl | hz
      · exact hxy
      · exact tr _ _ _ hxy (h.1 z hz)
    · rename_i hxy
      refine List.pairwise_cons.2 ⟨?_, ih h.2⟩
      intro z hz
      rcases List.mem_cons.1 ((insertSorted_perm x ys).mem_iff.1 hz) with rfl | hz
      · rcases tot z y with h' | h'
        · exact absurd h' hxy
        · exact h'
      · exact h.1 z hz

theorem pySorted_sorted (tot : ∀ a b, le a b = true ∨ le b a = true)
    (tr : ∀ a b c, le a b = true → le b c = true → le a c = true) (xs : List α) :
    (pySorted le xs).Pairwise (fun a b => le a b = true) := by
  induction xs with
  | nil => exact List.Pairwise.nil
  | cons x xs ih => exact insertSorted_sorted tot tr x _ ih

/-- elements equivalent to `k` -/
def equivTo (le : α → α → Bool) (k x : α) : Bool := le k x && le x k

theorem insertSorted_filter (tr : ∀ a b c, le a b = true → le b c = true → le a c = true) (k x : α) (ys : List α) :
    (insertSorted le x ys).filter (equivTo le k) = (x :: ys).filter (equivTo le k) := by
  induction ys with
  | nil => rfl
  | cons y ys ih =>
    unfold insertSorted
    split
    · rfl
    · rename_i hxy
      rw [List.filter_cons, ih]
      by_cases hx : equivTo le k x = true
      · by_cases hy : equivTo le k y = true
        · exfalso
          unfold equivTo at hx hy
          simp only [Bool.and_eq_true] at hx hy
          exact hxy (tr _ _ _ hx.2 hy.1)
        · simp [hx, hy]
      · simp [List.filter_cons, hx]

theorem pySorted_stable (tr : ∀ a b c, le a b = true → le b c = true → le a c = true) (k : α) (xs : List α) :
    (pySorted le xs).filter (equivTo le k) = xs.filter (equivTo le k) := by
  induction xs with
  | nil => rfl
  | cons x xs ih =>
    rw [pySorted, insertSorted_filter tr, List.filter_cons, List.filter_cons, ih]
end sort

/-! ### decimal numbers -/

theorem digitChar_toNat (n : Nat) (h : n < 10) : (digitChar n).toNat = 48 + n := by
  have : ∀ m : Fin 10, (digitChar m.1).toNat = 48 + m.1 := by decide
  exact this ⟨n, h⟩

theorem parseDec_append_digit (ds : List Char) (n : Nat) (h : n < 10) :
    parseDec (ds ++ [digitChar n]) = 10 * parseDec ds + n := by
  unfold parseDec
  rw [List.foldl_append]
  simp [digitChar_toNat n h]

theorem parseDec_decimal (n : Nat) : parseDec (decimal n) = n := by
  induction n using Nat.strongRecOn with
  | _ n ih =>
    unfold decimal
    split
    · rename_i h
      simp [parseDec, digitChar_toNat n h]
    · rename_i h
      rw [parseDec_append_digit _ _ (Nat.mod_lt _ (by decide)), ih (n / 10) (by omega)]
      omega

theorem isDigitChar_digitChar (n : Nat) (h : n < 10) : isDigitChar (digitChar n) = true := by
  simp [isDigitChar, digitChar_toNat n h]; omega

theorem decimal_digits (n : Nat) : ∀ c ∈ decimal n, isDigitChar c = true := by
  induction n using Nat.strongRecOn with
  | _ n ih =>
    unfold decimal
    split
    · rename_i h
      intro c hc; simp at hc; subst hc; exact isDigitChar_digitChar n h
    · rename_i h
      intro c hc
      rcases List.mem_append.1 hc with hc | hc
      · exact ih (n / 10) (by omega) c hc
      · simp at hc; subst hc; exact isDigitChar_digitChar _ (Nat.mod_lt _ (by decide))

theorem decimal_ne_nil (n : Nat) : decimal n ≠ [] := by
  unfold decimal; split <;> simp

theorem decimal_injective {a b : Nat} (h : decimal a = decimal b) : a = b := by
  have := congrArg parseDec h
  rwa [parseDec_decimal, parseDec_decimal] at this

theorem minus_not_mem_decimal (n : Nat) : '-' ∉ decimal n := fun h => absurd (decimal_digits n _ h) (by decide)

theorem decimalInt_injective {a b : Int} (h : decimalInt a = decimalInt b) : a = b := by
  cases a with
  | ofNat a =>
    cases b with
    | ofNat b => rw [decimal_injective (show decimal a = decimal b from h)]
    | negSucc b => exact absurd (show '-' ∈ decimal a by rw [show decimal a = '-' :: decimal (b + 1) from h]; simp) (minus_not_mem_decimal a)
  | negSucc a =>
    cases b with
    | ofNat b => exact absurd (show '-' ∈ decimal b by rw [← show '-' :: decimal (a + 1) = decimal b from h]; simp) (minus_not_mem_decimal b)
    | negSucc b =>
      have h2 : '-' :: decimal (a + 1) = '-' :: decimal (b + 1) := h
      injection h2 with _ h2
      have := decimal_injective h2
      have : a = b := by omega
      rw [this]

/-! ### join / split -/

theorem splitChars_ne_nil (c : Char) (cs : List Char) : splitChars c cs ≠ [] := by
  cases cs with
  | nil => simp [splitChars]
  | cons x xs =>
    unfold splitChars
    split
    · simp
    · split <;> simp

theorem splitChars_append_sep (c : Char) (p : List Char) (hp : c ∉ p) (rest : List Char) :
    splitChars c (p ++ c :: rest) = p :: splitChars c rest := by
  induction p with
  | nil => simp [splitChars]
  | cons x p ih =>
    simp only [List.mem_cons, not_or] at hp
    have hx : ¬ x = c := fun h => hp.1 h.symm
    rw [List.cons_append, splitChars, if_neg hx, ih hp.2]

theorem splitChars_no_sep (c : Char) (p : List Char) (hp : c ∉ p) : splitChars c p = [p] := by
  induction p with
  | nil => rfl
  | cons x p ih =>
    simp only [List.mem_cons, not_or] at hp
    have hx : ¬ x = c := fun h => hp.1 h.symm
    unfold splitChars
    rw [if_neg hx, ih hp.2]

theorem splitChars_join (c : Char) (xs : List (List Char)) (hne : xs ≠ []) (h : ∀ x ∈ xs, c ∉ x) :
    splitChars c (joinChars [c] xs) = xs := by
  induction xs with
  | nil => exact absurd rfl hne
  | cons x xs ih =>
    cases xs with
    | nil => exact splitChars_no_sep c x (h x (by simp))
    | cons y ys =>
      rw [joinChars, List.append_assoc, List.singleton_append, splitChars_append_sep c x (h x (by simp)),
        ih (by simp) (fun z hz => h z (List.mem_cons_of_mem _ hz))]

theorem splitChars_mem (c : Char) (cs : List Char) (t : List Char) (ht : t ∈ splitChars c cs) : c ∉ t := by
  induction cs generalizing t with
  | nil => simp [splitChars] at ht; subst ht; simp
  | cons x xs ih =>
    rw [splitChars] at ht
    split at ht
    · rcases List.mem_cons.1 ht with rfl | ht
      · simp
      · exact ih t ht
    · rename_i hx
      split at ht
      · rename_i he; exact absurd he (splitChars_ne_nil c xs)
      · rename_i p ps he
        rcases List.mem_cons.1 ht with rfl | ht
        · have := ih p (by rw [he]; simp)
          simp only [List.mem_cons, not_or]
          exact ⟨fun h => hx h.symm, this⟩
        · exact ih t (by rw [he]; simp [ht])

theorem joinChars_splitChars (c : Char) (cs : List Char) : joinChars [c] (splitChars c cs) = cs := by
  induction cs with
  | nil => rfl
  | cons x xs ih =>
    unfold splitChars
    split
    · rename_i hx
      subst hx
      cases hs : splitChars x xs with
      | nil => exact absurd hs (splitChars_ne_nil _ _)
      | cons p ps => rw [joinChars, ← hs, ih]; rfl
    · cases hs : splitChars c xs with
      | nil => exact absurd hs (splitChars_ne_nil _ _)
      | cons p ps =>
        simp only
        rw [hs] at ih
        cases ps with
        | nil => simpa [joinChars] using ih
        | cons q qs => simpa [joinChars] using ih

end Dg
