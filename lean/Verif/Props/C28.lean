import Verif.Model.Spanstring
import Batteries.Lean.Except
import Verif.Lemmas.Text

/-! C28: convert_spanstring. -/

namespace Dg

/-- what a span string consists of: single token IDs and ranges of numbered IDs -/
inductive SpanItem
  | one (pre suf : List Char)
  | range (pre : List Char) (a b : Nat)

/-- how it is written: `word_3` or `word_3..word_7` -/
def SpanItem.render : SpanItem → List Char
  | .one p s => p ++ '_' :: s
  | .range p a b => (p ++ '_' :: decimal a) ++ '.' :: '.' :: (p ++ '_' :: decimal b)

/-- the token IDs it stands for: the ID itself, or all numbers from `a` to `b`, both included -/
def SpanItem.tokens : SpanItem → List (List Char)
  | .one p s => [p ++ '_' :: s]
  | .range p a b => (List.range' a (b + 1 - a)).map (fun n => p ++ '_' :: decimal n)

def SpanItem.pre : SpanItem → List Char
  | .one p _ => p
  | .range p _ _ => p

/-- no two adjacent dots -/
def NoDots (cs : List Char) : Prop := ∀ x y, cs ≠ x ++ '.' :: '.' :: y

/-- token IDs have the form prefix + '_' + something, without further underscores, commas or double dots -/
def SpanItem.WellFormed : SpanItem → Prop
  | .one p s => ',' ∉ p ∧ '_' ∉ p ∧ ',' ∉ s ∧ '_' ∉ s ∧ NoDots (p ++ '_' :: s)
  | .range p _ _ => ',' ∉ p ∧ '_' ∉ p ∧ NoDots p

theorem noDots_cons {a b : Char} {cs : List Char} (h : NoDots (a :: b :: cs)) : ¬ (a = '.' ∧ b = '.') ∧ NoDots (b :: cs) := by
  refine ⟨?_, ?_⟩
  · rintro ⟨rfl, rfl⟩; exact h [] cs rfl
  · intro x y hxy; exact h (a :: x) y (by rw [hxy]; rfl)

theorem splitDots_noDots : ∀ (cs : List Char), NoDots cs → splitDots cs = [cs]
  | [], _ => rfl
  | [c], _ => rfl
  | a :: b :: cs, h => by
    obtain ⟨h1, h2⟩ := noDots_cons h
    simp only [splitDots, if_neg h1, splitDots_noDots (b :: cs) h2, pushHead]

theorem splitDots_append : ∀ (s t : List Char), NoDots s → (∀ x, s ≠ x ++ ['.']) → splitDots (s ++ '.' :: '.' :: t) = s :: splitDots t
  | [], t, _, _ => by simp [splitDots]
  | [c], t, _, hl => by
    have hc : c ≠ '.' := by rintro rfl; exact hl [] rfl
    simp [splitDots, hc, pushHead]
  | a :: b :: s, t, h, hl => by
    obtain ⟨h1, h2⟩ := noDots_cons h
    have := splitDots_append (b :: s) t h2 (by intro x hx; exact hl (a :: x) (by rw [hx]; rfl))
    simp only [List.cons_append] at this ⊢
    simp only [splitDots, if_neg h1, this, pushHead]

theorem digit_ne {c d : Char} (h : isDigitChar c = true) (hd : isDigitChar d = false) : c ≠ d := by
  rintro rfl; rw [h] at hd; simp at hd

theorem not_mem_decimal {d : Char} (hd : isDigitChar d = false) (n : Nat) : d ∉ decimal n := fun h => digit_ne (decimal_digits n d h) hd rfl

theorem noDots_of_split {p s : List Char} (c : Char) (hc : c ≠ '.') (hp : NoDots p) (hs : '.' ∉ s) : NoDots (p ++ c :: s) := by
  intro x y h
  rcases List.append_eq_append_iff.1 h with ⟨u, h1, h2⟩ | ⟨u, h1, h2⟩
  · -- p ends inside the dots or before them
    cases u with
    | nil => simp at h2; exact hc h2.1
    | cons e u =>
      have : e = c := by simp at h2; exact h2.1.symm
      simp at h2
      exact hs (by rw [h2.2]; simp)
  · cases u with
    | nil => simp at h2; exact hc h2.1.symm
    | cons e u =>
      simp at h2
      obtain ⟨rfl, h2⟩ := h2
      cases u with
      | nil => simp at h2; exact hc h2.1.symm
      | cons f u =>
        simp at h2
        obtain ⟨rfl, h2⟩ := h2
        exact hp x u h1

theorem unpack2_ok {p s : List Char} (hp : '_' ∉ p) (hs : '_' ∉ s) : unpack2 (p ++ '_' :: s) = .ok (p, s) := by
  unfold unpack2
  rw [splitChars_append_sep _ _ hp, splitChars_no_sep _ _ hs]

theorem pyStrip_digits {cs : List Char} (h : ∀ c ∈ cs, isDigitChar c = true) : pyStrip cs = cs := by
  have hsp : ∀ {c}, isDigitChar c = true → isSpaceChar c = false := by
    intro c hc
    unfold isSpaceChar
    have := fun d (hd : isDigitChar d = false) => digit_ne hc hd
    simp [this ' ' (by decide), this '\t' (by decide), this '\n' (by decide), this '\r' (by decide), this '\x0b' (by decide), this '\x0c' (by decide)]
  have hdw : ∀ {ds : List Char}, (∀ c ∈ ds, isDigitChar c = true) → ds.dropWhile isSpaceChar = ds := by
    intro ds hds
    cases ds with
    | nil => rfl
    | cons d ds => simp [List.dropWhile, hsp (hds d (by simp))]
  unfold pyStrip
  rw [hdw h, hdw (by simpa using h), List.reverse_reverse]

theorem pyInt_decimal (n : Nat) : pyInt (decimal n) = some (n : Int) := by
  have hd := decimal_digits n
  have hne := decimal_ne_nil n
  unfold pyInt
  rw [pyStrip_digits hd]
  have hn : pyNat (decimal n) = some n := by
    unfold pyNat
    rw [if_pos ⟨hne, by simpa using hd⟩, parseDec_decimal]
  split
  · rename_i ds h
    exact absurd rfl (digit_ne (d := '-') (hd '-' (by rw [h]; simp)) (by decide))
  · rename_i ds h
    exact absurd rfl (digit_ne (d := '+') (hd '+' (by rw [h]; simp)) (by decide))
  · rw [hn]; rfl

theorem pyRange_nat (a b : Nat) : pyRange a (b + 1) = (List.range' a (b + 1 - a)).map (fun (n : Nat) => (n : Int)) := by
  unfold pyRange
  rw [List.range'_eq_map_range, List.map_map, show ((b : Int) + 1 - (a : Int)).toNat = b + 1 - a by omega]
  apply List.map_congr_left
  intro n _
  simp

theorem convertSpan_render (it : SpanItem) (h : it.WellFormed) : convertSpan it.render = .ok it.tokens := by
  cases it with
  | one p s =>
    obtain ⟨_, _, _, _, h5⟩ := h
    simp [convertSpan, SpanItem.render, SpanItem.tokens, splitDots_noDots _ h5]
  | range p a b =>
    obtain ⟨_, h2, h3⟩ := h
    have hs : ∀ n, NoDots (p ++ '_' :: decimal n) := fun n => noDots_of_split '_' (by decide) h3 (not_mem_decimal (by decide) n)
    have hl : ∀ n x, p ++ '_' :: decimal n ≠ x ++ ['.'] := by
      intro n x hx
      have h1 : (p ++ '_' :: decimal n).getLast? = some '.' := by rw [hx]; simp
      have h2 : (p ++ '_' :: decimal n).getLast? = (decimal n).getLast? := by
        rw [List.getLast?_append]
        have : ('_' :: decimal n).getLast? = (decimal n).getLast? := by
          cases hd : decimal n with
          | nil => exact absurd hd (decimal_ne_nil n)
          | cons c cs => rw [List.getLast?_cons_cons]
        rw [this]
        cases hd : (decimal n).getLast? with
        | none => rw [List.getLast?_eq_none_iff] at hd; exact absurd hd (decimal_ne_nil n)
        | some c => rfl
      rw [h2] at h1
      exact not_mem_decimal (d := '.') (by decide) n (List.mem_of_getLast? h1)
    unfold convertSpan
    simp only [SpanItem.render, splitDots_append _ _ (hs a) (hl a), splitDots_noDots _ (hs b), unpack2_ok h2 (not_mem_decimal (d := '_') (by decide) _),
      bind, Except.bind, if_true, intOrError, pyInt_decimal, pyRange_nat, SpanItem.tokens, List.map_map]
    rfl

theorem convertSpans_render (its : List SpanItem) (h : ∀ it ∈ its, it.WellFormed) : convertSpans (its.map SpanItem.render) = .ok (its.flatMap SpanItem.tokens) := by
  induction its with
  | nil => rfl
  | cons it its ih =>
    simp only [List.map_cons, convertSpans, convertSpan_render it (h it (by simp)), ih (fun x hx => h x (List.mem_cons_of_mem _ hx)), bind, Except.bind, List.flatMap_cons]

theorem token_shape {it : SpanItem} (h : it.WellFormed) {t : List Char} (ht : t ∈ it.tokens) : ∃ x, t = it.pre ++ '_' :: x ∧ '_' ∉ it.pre ∧ '_' ∉ x := by
  cases it with
  | one p s =>
    simp [SpanItem.tokens] at ht
    exact ⟨s, ht, h.2.1, h.2.2.2.1⟩
  | range p a b =>
    simp only [SpanItem.tokens, List.mem_map] at ht
    obtain ⟨n, _, rfl⟩ := ht
    exact ⟨_, rfl, h.2.1, not_mem_decimal (by decide) _⟩

theorem comma_not_mem_render {it : SpanItem} (h : it.WellFormed) : ',' ∉ it.render := by
  cases it with
  | one p s => simp [SpanItem.render, h.1, h.2.2.1]
  | range p a b => simp [SpanItem.render, h.1, not_mem_decimal (d := ',') (by decide)]

theorem checkToken_eq {p q x : List Char} (hq : '_' ∉ q) (hx : '_' ∉ x) : checkToken p (q ++ '_' :: x) = decide (q = p) := by
  unfold checkToken
  rw [splitChars_append_sep _ _ hq, splitChars_no_sep _ _ hx]

theorem render_join_ne_nil {its : List SpanItem} (hne : its ≠ []) : joinChars [','] (its.map SpanItem.render) ≠ [] := by
  have h1 : ∀ it : SpanItem, it.render ≠ [] := by
    intro it
    cases it <;> simp [SpanItem.render]
  cases its with
  | nil => exact absurd rfl hne
  | cons it its =>
    cases its with
    | nil => exact h1 it
    | cons it2 its => simp [joinChars, h1 it]

/-- **C28, partial**.  Every list of token IDs `p_x` and ranges `p_a..p_b` with one common prefix, written with commas in between, is expanded into exactly the listed
IDs in order, both ends of ranges included.
Missing: range ends written with leading zeros, whose expansion does not contain the listed IDs (`c28_fails_for_leading_zeros`). -/
theorem c28_expands_partial (its : List SpanItem) (p : List Char) (h : ∀ it ∈ its, it.WellFormed ∧ it.pre = p) (hne : its.flatMap SpanItem.tokens ≠ []) :
    convertSpanChars (joinChars [','] (its.map SpanItem.render)) = .ok (its.flatMap SpanItem.tokens) := by
  have hits : its ≠ [] := by rintro rfl; exact hne rfl
  have hsplit : splitChars ',' (joinChars [','] (its.map SpanItem.render)) = its.map SpanItem.render :=
    splitChars_join _ _ (by simpa using hits) (by
      intro x hx
      obtain ⟨it, hit, rfl⟩ := List.mem_map.1 hx
      exact comma_not_mem_render (h it hit).1)
  have hshape : ∀ t ∈ its.flatMap SpanItem.tokens, ∃ x, t = p ++ '_' :: x ∧ '_' ∉ p ∧ '_' ∉ x := by
    intro t ht
    obtain ⟨it, hit, ht'⟩ := List.mem_flatMap.1 ht
    have := token_shape (h it hit).1 ht'
    rwa [(h it hit).2] at this
  unfold convertSpanChars
  rw [if_neg (render_join_ne_nil hits), hsplit, convertSpans_render its (fun it hit => (h it hit).1)]
  simp only [bind, Except.bind]
  generalize its.flatMap SpanItem.tokens = ts at hne hshape
  cases ts with
  | nil => exact absurd rfl hne
  | cons t ts =>
    obtain ⟨x, hx, hp, hx'⟩ := hshape t (by simp)
    simp only
    rw [hx, splitChars_append_sep _ _ hp, ← hx]
    simp only
    rw [if_pos]
    rw [List.all_eq_true]
    intro u hu
    obtain ⟨y, rfl, _, hy⟩ := hshape u hu
    rw [checkToken_eq hp hy]; simp

/-- **C28 (mixed prefixes)**.  If two of the listed IDs have different prefixes, convert_spanstring raises an AssertionError. -/
theorem c28_rejects_mixed_prefixes (its : List SpanItem) (h : ∀ it ∈ its, it.WellFormed)
    (hmix : ∃ i ∈ its, ∃ j ∈ its, i.tokens ≠ [] ∧ j.tokens ≠ [] ∧ i.pre ≠ j.pre) :
    convertSpanChars (joinChars [','] (its.map SpanItem.render)) = .error .assertion := by
  obtain ⟨i, hi, j, hj, hti, htj, hij⟩ := hmix
  have hits : its ≠ [] := List.ne_nil_of_mem hi
  have hsplit : splitChars ',' (joinChars [','] (its.map SpanItem.render)) = its.map SpanItem.render :=
    splitChars_join _ _ (by simpa using hits) (by
      intro x hx
      obtain ⟨it, hit, rfl⟩ := List.mem_map.1 hx
      exact comma_not_mem_render (h it hit))
  unfold convertSpanChars
  rw [if_neg (render_join_ne_nil hits), hsplit, convertSpans_render its h]
  simp only [bind, Except.bind]
  have hex : ∀ k ∈ its, k.tokens ≠ [] → ∃ t ∈ its.flatMap SpanItem.tokens, ∃ x, t = k.pre ++ '_' :: x ∧ '_' ∉ k.pre ∧ '_' ∉ x := by
    intro k hk hkt
    obtain ⟨t, ht⟩ := List.exists_mem_of_ne_nil _ hkt
    exact ⟨t, List.mem_flatMap.2 ⟨k, hk, ht⟩, token_shape (h k hk) ht⟩
  have hall : ∀ t ∈ its.flatMap SpanItem.tokens, ∃ q x, t = q ++ '_' :: x ∧ '_' ∉ q ∧ '_' ∉ x := by
    intro t ht
    obtain ⟨it, hit, ht'⟩ := List.mem_flatMap.1 ht
    obtain ⟨x, h1, h2, h3⟩ := token_shape (h it hit) ht'
    exact ⟨_, x, h1, h2, h3⟩
  obtain ⟨t1, m1, x1, e1, n1, n1'⟩ := hex i hi hti
  obtain ⟨t2, m2, x2, e2, n2, n2'⟩ := hex j hj htj
  generalize its.flatMap SpanItem.tokens = ts at m1 m2 hall
  cases ts with
  | nil => simp at m1
  | cons t ts =>
    obtain ⟨q, x, hx, hq, hx'⟩ := hall t (by simp)
    simp only
    rw [hx, splitChars_append_sep _ _ hq, ← hx]
    simp only
    rw [if_neg]
    rw [List.all_eq_true]
    intro hchk
    have c1 := hchk t1 m1
    have c2 := hchk t2 m2
    rw [e1, checkToken_eq n1 n1'] at c1
    rw [e2, checkToken_eq n2 n2'] at c2
    simp only [decide_eq_true_eq] at c1 c2
    exact hij (c1.trans c2.symm)

/-- **C28 (soundness)**.  Whatever the input, if convert_spanstring returns tokens, they all have the form `p_x` for one common prefix `p`. -/
theorem c28_result_shares_prefix (cs : List Char) (ts : List (List Char)) (h : convertSpanChars cs = .ok ts) :
    ∃ p, ∀ t ∈ ts, ∃ x, t = p ++ '_' :: x ∧ '_' ∉ x := by
  unfold convertSpanChars at h
  split at h
  · injection h with h; subst h; exact ⟨[], by simp⟩
  · cases hc : convertSpans (splitChars ',' cs) with
    | error e => rw [hc] at h; simp [bind, Except.bind] at h
    | ok us =>
      rw [hc] at h
      simp only [bind, Except.bind] at h
      cases us with
      | nil => simp at h
      | cons u us =>
        simp only at h
        cases hs : splitChars '_' u with
        | nil => rw [hs] at h; simp at h
        | cons first rest =>
          rw [hs] at h
          simp only at h
          split at h
          · rename_i hall
            injection h with h; subst h
            refine ⟨first, fun t ht => ?_⟩
            have hchk := List.all_eq_true.1 hall t ht
            unfold checkToken at hchk
            have hj := joinChars_splitChars '_' t
            split at hchk
            · rename_i p x hp
              simp only [decide_eq_true_eq] at hchk
              subst hchk
              rw [hp] at hj
              refine ⟨x, by rw [← hj]; simp [joinChars], ?_⟩
              intro hx
              -- pieces contain no separator
              have : ∀ (cs : List Char), ∀ y ∈ splitChars '_' cs, '_' ∉ y := by
                intro cs
                induction cs with
                | nil => simp [splitChars]
                | cons c cs ih =>
                  unfold splitChars
                  split
                  · intro y hy
                    rcases List.mem_cons.1 hy with rfl | hy
                    · simp
                    · exact ih y hy
                  · rename_i hc
                    split
                    · intro y hy; simp at hy; subst hy; simpa using fun h => hc h.symm
                    · rename_i q qs hq
                      rw [hq] at ih
                      intro y hy
                      rcases List.mem_cons.1 hy with rfl | hy
                      · simp only [List.mem_cons, not_or]; exact ⟨fun h => hc h.symm, ih q (by simp)⟩
                      · exact ih y (List.mem_cons_of_mem _ hy)
              exact this t x (by rw [hp]; simp) hx
            · simp at hchk
          · simp at h

/-- the hypotheses are met by the docstring example 'word_7..word_9,word_15,word_17..word_19' -/
example : let its := [SpanItem.range "word".toList 7 9, .one "word".toList "15".toList, .range "word".toList 17 19]
    joinChars [','] (its.map SpanItem.render) = "word_7..word_9,word_15,word_17..word_19".toList ∧
    its.flatMap SpanItem.tokens = ["word_7".toList, "word_8".toList, "word_9".toList, "word_15".toList, "word_17".toList, "word_18".toList, "word_19".toList] := by decide +kernel
example : convertSpanstring "word_7..word_9,word_15,word_17..word_19" = .ok ["word_7", "word_8", "word_9", "word_15", "word_17", "word_18", "word_19"] := by decide +kernel
example : convertSpanstring "word_1,w_2" = .error .assertion := by decide +kernel

/-- **C28 is violated** for range ends with leading zeros: the listed IDs word_07 and word_09 are not in the result. -/
theorem c28_fails_for_leading_zeros : convertSpanstring "word_07..word_09" = .ok ["word_7", "word_8", "word_9"] := by decide +kernel

/-- the empty string stands for no tokens; a string whose only span is an empty range raises IndexError -/
theorem c28_empty : convertSpanstring "" = .ok [] ∧ convertSpanstring "word_3..word_2" = .error .index := by decide +kernel

end Dg
