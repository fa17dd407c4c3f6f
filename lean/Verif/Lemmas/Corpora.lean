import Verif.Model.Corpora
import Verif.Spec.Corpora
import Verif.Lemmas.DisSub

/-! File patterns and document IDs (C73). -/

namespace Dg

theorem mem_suffixes {t s : List Char} : t ∈ suffixes s ↔ t <:+ s := by
  induction s with
  | nil => simp [suffixes]
  | cons c s ih => simp only [suffixes, List.mem_cons, ih, List.suffix_cons_iff]

theorem fnmatch_star_iff (p s : List Char) : fnmatch ('*' :: p) s = true ↔ ∃ t, t <:+ s ∧ fnmatch p t = true := by
  rw [fnmatch, if_pos rfl, List.any_eq_true]
  simp only [mem_suffixes]

theorem fnmatch_lit {p : List Char} (h1 : '*' ∉ p) (h2 : '?' ∉ p) (q : List Char) : ∀ s, fnmatch (p ++ q) s = true ↔ ∃ r, s = p ++ r ∧ fnmatch q r = true := by
  induction p with
  | nil => intro s; simp
  | cons c p ih =>
    intro s
    simp only [List.mem_cons, not_or] at h1 h2
    rw [List.cons_append, fnmatch, if_neg (Ne.symm h1.1)]
    cases s with
    | nil => simp
    | cons x r =>
      have hq : decide (c = '?') = false := by simpa using Ne.symm h2.1
      simp only [List.head?_cons, Option.any_some, List.tail_cons, hq, Bool.false_or, Bool.and_eq_true, decide_eq_true_eq, ih h1.2 h2.2 r, List.cons_append, List.cons.injEq]
      constructor
      · rintro ⟨rfl, r', h⟩; exact ⟨r', ⟨rfl, h.1⟩, h.2⟩
      · rintro ⟨r', ⟨rfl, h⟩, h'⟩; exact ⟨rfl, r', h, h'⟩

/-- the pattern of a document looks for its ID followed by a dot, anywhere in the path -/
theorem docPattern_iff {d : List Char} (h1 : '*' ∉ d) (h2 : '?' ∉ d) (f : List Char) : fnmatch (docPattern d) f = true ↔ d ++ ['.'] <:+: f := by
  unfold docPattern
  rw [fnmatch_star_iff]
  have e : d ++ ['.', '*'] = (d ++ ['.']) ++ ['*'] := by simp
  have hstar : ∀ r, fnmatch ['*'] r = true := fun r => (fnmatch_star_iff [] r).2 ⟨[], List.nil_suffix, rfl⟩
  simp only [e]
  constructor
  · rintro ⟨t, ⟨a, rfl⟩, ht⟩
    obtain ⟨r, rfl, -⟩ := (fnmatch_lit (by simp [h1]) (by simp [h2]) ['*'] t).1 ht
    exact ⟨a, r, by simp⟩
  · rintro ⟨a, r, rfl⟩
    exact ⟨(d ++ ['.']) ++ r, ⟨a, by simp⟩, (fnmatch_lit (by simp [h1]) (by simp [h2]) ['*'] _).2 ⟨r, rfl, hstar r⟩⟩

theorem digit_range {c : Char} (h : '0' ≤ c ∧ c ≤ '9') : c ≠ 'm' ∧ c ≠ '.' ∧ c ≠ '*' ∧ c ≠ '?' ∧ c ≠ '/' ∧ c ≠ '\n' ∧ c.isDigit = true := by
  have h1 : 48 ≤ c.toNat := h.1
  have h2 : c.toNat ≤ 57 := h.2
  refine ⟨?_, ?_, ?_, ?_, ?_, ?_, ?_⟩
  all_goals first
    | (rintro rfl; revert h1 h2; decide)
    | (unfold Char.isDigit; simp only [Bool.and_eq_true, decide_eq_true_eq]; exact h)

theorem IsDocId.plain {d : List Char} (h : IsDocId d) : '*' ∉ d ∧ '?' ∉ d ∧ '.' ∉ d ∧ '/' ∉ d ∧ '\n' ∉ d := by
  obtain ⟨n, -, h2, rfl⟩ := h
  have : ∀ x, x ∈ ['*', '?', '.', '/', '\n'] → x ∉ 'm' :: 'a' :: 'z' :: '-' :: n := by
    intro x hx hm
    simp only [List.mem_cons] at hm
    rcases hm with rfl | rfl | rfl | rfl | hm
    · revert hx; decide
    · revert hx; decide
    · revert hx; decide
    · revert hx; decide
    · have := digit_range (h2 x hm)
      simp only [List.mem_cons, List.not_mem_nil, or_false] at hx
      rcases hx with rfl | rfl | rfl | rfl | rfl <;> simp at this
  exact ⟨this _ (by simp), this _ (by simp), this _ (by simp), this _ (by simp), this _ (by simp)⟩

theorem infix_head {c : Char} {p r : List Char} (hc : c ∉ r) (h : c :: p <:+: c :: r) : p <+: r := by
  rcases List.infix_cons_iff.1 h with h | h
  · exact (List.cons_prefix_cons.1 h).2
  · exact absurd (h.subset List.mem_cons_self) hc

/-- an ID with its dot is in `id.ext` only if it is the ID -/
theorem docId_infix {d e ext : List Char} (hd : IsDocId d) (he : IsDocId e) (hx : '.' ∉ ext) (h : d ++ ['.'] <:+: e ++ '.' :: ext) : d = e := by
  have h1 : d ++ ['.'] <:+: e ++ ['.'] := by
    have : e ++ '.' :: ext = (e ++ ['.']) ++ ext := by simp
    rw [this] at h
    exact infix_skip_end hx h
  have hdp := hd.plain
  have hep := he.plain
  obtain ⟨n, -, h3, rfl⟩ := hd
  obtain ⟨m, -, h5, rfl⟩ := he
  have hm : 'm' ∉ 'a' :: 'z' :: '-' :: (m ++ ['.']) := by
    intro k
    simp only [List.mem_cons, List.mem_append, List.not_mem_nil, or_false] at k
    rcases k with k | k | k | k | k
    · revert k; decide
    · revert k; decide
    · revert k; decide
    · exact (digit_range (h5 _ k)).1 rfl
    · revert k; decide
  have h6 := infix_head hm h1
  have h7 : n ++ ['.'] <+: m ++ ['.'] := by
    have h6 := (List.cons_prefix_cons.1 (List.cons_prefix_cons.1 (List.cons_prefix_cons.1 h6).2).2).2
    exact h6
  have h8 : n ++ ['.'] = m ++ ['.'] := by
    rcases List.prefix_concat_iff.1 h7 with h | h
    · exact h
    · exfalso
      have : '.' ∈ m := h.subset (by simp)
      exact (digit_range (h5 _ this)).2.1 rfl
  rw [List.append_cancel_right h8]

theorem docIdAt_some {s d : List Char} (h : docIdAt s = some d) : IsDocId d ∧ d ++ ['.'] <+: s := by
  unfold docIdAt at h
  split at h
  · rename_i hp
    obtain ⟨r, rfl⟩ := List.isPrefixOf_iff_prefix.1 hp
    simp only [List.cons_append, List.nil_append, List.drop_succ_cons, List.drop_zero] at h
    split at h
    · rename_i hc
      simp only [Option.some.injEq] at h
      subst h
      refine ⟨⟨_, hc.1, ?_, rfl⟩, ?_⟩
      · intro c hc
        have : c.isDigit = true := by
          have := List.all_takeWhile (p := Char.isDigit) (l := r)
          exact List.all_eq_true.1 this c hc
        unfold Char.isDigit at this
        simp only [Bool.and_eq_true, decide_eq_true_eq] at this
        exact this
      · have e := List.takeWhile_append_dropWhile (p := Char.isDigit) (l := r)
        cases hdw : r.dropWhile Char.isDigit with
        | nil => rw [hdw] at hc; simp at hc
        | cons x q =>
          rw [hdw] at hc e
          have hx : x = '.' := by simpa using hc.2
          subst hx
          rw [← e]
          refine ⟨q, ?_⟩
          simp only [List.cons_append, List.nil_append, List.append_assoc, e]
    · cases h
  · cases h

theorem docIdOf_some {s d : List Char} (h : docIdOf s = some d) : IsDocId d ∧ d ++ ['.'] <:+: s := by
  induction s with
  | nil => cases h
  | cons c r ih =>
    unfold docIdOf at h
    cases hr : (if c = '\n' then none else docIdOf r) with
    | none =>
      rw [hr] at h
      have := docIdAt_some (by simpa using h)
      exact ⟨this.1, this.2.isInfix⟩
    | some d' =>
      rw [hr] at h
      simp only [Option.orElse_some, Option.some.injEq] at h
      subst h
      split at hr
      · cases hr
      · have := ih hr
        exact ⟨this.1, List.infix_cons this.2⟩

theorem docIdAt_id {d ext : List Char} (hd : IsDocId d) : docIdAt (d ++ '.' :: ext) = some d := by
  obtain ⟨n, h1, h2, rfl⟩ := hd
  have hn : ∀ c ∈ n, c.isDigit = true := fun c hc => (digit_range (h2 c hc)).2.2.2.2.2.2
  have ht : (n ++ '.' :: ext).takeWhile Char.isDigit = n := by
    rw [List.takeWhile_append_of_pos hn]; simp
  have hd : (n ++ '.' :: ext).dropWhile Char.isDigit = '.' :: ext := by
    rw [List.dropWhile_append_of_pos hn]; rfl
  unfold docIdAt
  rw [if_pos (by simp [List.isPrefixOf])]
  simp only [List.cons_append, List.drop_succ_cons, List.drop_zero, ht, hd]
  rw [if_pos ⟨h1, rfl⟩]
  rfl

/-- the ID of a file -/
theorem docIdOf_file {d ext : List Char} (hd : IsDocId d) (hx : '.' ∉ ext) : docIdOf (d ++ '.' :: ext) = some d := by
  have hat := docIdAt_id (ext := ext) hd
  obtain ⟨n, h1, h2, rfl⟩ := hd
  have hrest : docIdOf ('a' :: 'z' :: '-' :: (n ++ '.' :: ext)) = none := by
    cases h : docIdOf ('a' :: 'z' :: '-' :: (n ++ '.' :: ext)) with
    | none => rfl
    | some e =>
      exfalso
      obtain ⟨he, hi⟩ := docIdOf_some h
      have heq := docId_infix he ⟨n, h1, h2, rfl⟩ hx (show e ++ ['.'] <:+: 'm' :: ('a' :: 'z' :: '-' :: (n ++ '.' :: ext)) from List.infix_cons hi)
      subst heq
      have e1 : 'a' :: 'z' :: '-' :: (n ++ '.' :: ext) = ('a' :: 'z' :: '-' :: (n ++ ['.'])) ++ ext := by simp
      rw [e1] at hi
      have h3 := infix_skip_end hx hi
      have : 'm' ∈ 'a' :: 'z' :: '-' :: (n ++ ['.']) := h3.subset List.mem_cons_self
      simp only [List.mem_cons, List.mem_append, List.not_mem_nil, or_false] at this
      rcases this with k | k | k | k | k
      · revert k; decide
      · revert k; decide
      · revert k; decide
      · exact (digit_range (h2 _ k)).1 rfl
      · revert k; decide
  simp only [List.cons_append] at hat ⊢
  rw [docIdOf, if_neg (by decide), hrest]
  exact hat

theorem basename_file (dir : List Char) {b : List Char} (h : '/' ∉ b) : basename (dir ++ '/' :: b) = b := by
  unfold basename
  rw [List.reverse_append, List.reverse_cons, List.append_assoc, List.takeWhile_append_of_pos]
  · simp
  · intro c hc
    have : c ∈ b := List.mem_reverse.1 hc
    simp only [decide_not, Bool.not_eq_true', decide_eq_false_iff_not]
    rintro rfl
    exact h this

theorem charsLe_iff (a b : List Char) : charsLe a b = true ↔ CharsBelow a b := by
  induction a generalizing b with
  | nil => exact ⟨fun _ => .nil b, fun _ => rfl⟩
  | cons x a ih =>
    cases b with
    | nil =>
      constructor
      · intro h; cases h
      · intro h; cases h
    | cons y b =>
      rw [charsLe]
      by_cases hxy : x = y
      · subst hxy
        rw [if_pos rfl, ih]
        refine ⟨.next, fun h => ?_⟩
        cases h with
        | first _ _ h => exact absurd h (Nat.lt_irrefl _)
        | next h => exact h
      · rw [if_neg hxy, decide_eq_true_eq]
        refine ⟨.first _ _, fun h => ?_⟩
        cases h with
        | first _ _ h => exact h
        | next h => exact absurd rfl hxy

theorem charsLe_total (a b : List Char) : charsLe a b = true ∨ charsLe b a = true := by
  induction a generalizing b with
  | nil => exact .inl rfl
  | cons x a ih =>
    cases b with
    | nil => exact .inr rfl
    | cons y b =>
      simp only [charsLe]
      by_cases hxy : x = y
      · subst hxy; simp only [if_true]; exact ih b
      · rw [if_neg hxy, if_neg (Ne.symm hxy), decide_eq_true_eq, decide_eq_true_eq]
        have : x.toNat ≠ y.toNat := fun k => hxy (by rw [← Char.ofNat_toNat x, k, Char.ofNat_toNat])
        omega

theorem charsLe_trans {a b c : List Char} (h1 : charsLe a b = true) (h2 : charsLe b c = true) : charsLe a c = true := by
  induction a generalizing b c with
  | nil => rfl
  | cons x a ih =>
    cases b with
    | nil => cases h1
    | cons y b =>
      cases c with
      | nil => cases h2
      | cons z c =>
        simp only [charsLe] at h1 h2 ⊢
        by_cases hxy : x = y
        · subst hxy
          simp only [if_true] at h1
          by_cases hxz : x = z
          · subst hxz; simp only [if_true] at h2 ⊢; exact ih h1 h2
          · rw [if_neg hxz] at h2 ⊢; exact h2
        · rw [if_neg hxy, decide_eq_true_eq] at h1
          by_cases hyz : y = z
          · subst hyz
            rw [if_neg hxy, decide_eq_true_eq]; exact h1
          · rw [if_neg hyz, decide_eq_true_eq] at h2
            have : x ≠ z := by rintro rfl; omega
            rw [if_neg this, decide_eq_true_eq]
            omega

end Dg
