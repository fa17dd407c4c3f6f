import Verif.Model.WordWrap
import Verif.Spec.WordWrap
import Verif.Lemmas.Urml
import Verif.Lemmas.Text
import Mathlib.Tactic.ByContra

/-! Lemmas about word_wrap_tree. -/

namespace Dg

/-! ### splitting at white space -/

theorem splitBy_spaces {p : Char → Bool} : ∀ {a : List Char}, (∀ x ∈ a, p x = true) → ∀ s, splitBy p (a ++ s) = splitBy p s
  | [], _, _ => rfl
  | x :: a, h, s => by
    rw [List.cons_append, splitBy, splitByAux, if_pos (h x (by simp)), if_pos rfl]
    exact splitBy_spaces (fun y hy => h y (by simp [hy])) s

theorem splitByAux_end {p : Char → Bool} {c : Char} (hp : p c = true) : ∀ (s cur : List Char), splitByAux p cur (s ++ [c]) = splitByAux p cur s
  | [], cur => by
    by_cases h : cur = [] <;> simp [h, splitByAux, hp]
  | d :: s, cur => by
    rw [List.cons_append, splitByAux, splitByAux, splitByAux_end hp s, splitByAux_end hp s]

theorem splitBy_sep {p : Char → Bool} {c : Char} (hp : p c = true) (a b : List Char) : splitBy p (a ++ c :: b) = splitBy p a ++ splitBy p b := by
  unfold splitBy
  rw [splitByAux_append_sep p hp b a [], splitByAux_end hp]
  rfl

theorem splitBy_trail {p : Char → Bool} (s : List Char) : ∀ {a : List Char}, (∀ x ∈ a, p x = true) → splitBy p (s ++ a) = splitBy p s
  | [], _ => by rw [List.append_nil]
  | x :: a, h => by
    have h1 := splitBy_spaces (p := p) (a := a) (fun y hy => h y (by simp [hy])) []
    rw [List.append_nil] at h1
    rw [splitBy_sep (h x (by simp)), h1]
    show splitBy p s ++ [] = _
    rw [List.append_nil]

theorem splitBy_lines {p : Char → Bool} (hp : p '\n' = true) : ∀ xs : List (List Char), splitBy p (joinChars ['\n'] xs) = xs.flatMap (splitBy p)
  | [] => rfl
  | [x] => by simp [joinChars]
  | x :: y :: xs => by
    rw [joinChars, List.append_assoc, List.singleton_append, splitBy_sep hp, splitBy_lines hp (y :: xs)]
    rfl

theorem splitBy_chunks {cs : List (List Char)} (ha : Alternating cs) (hp : ∀ c ∈ cs, c ≠ [] ∧ (AllSpace c ∨ NoSpace c)) : splitBy isUniSpace cs.flatten = cs.filter (fun c => !blankChunk c) := by
  induction cs with
  | nil => rfl
  | cons c cs ih =>
    have ha' : Alternating cs := by
      cases cs with
      | nil => trivial
      | cons d r => exact ha.2
    have ih := ih ha' (fun x hx => hp x (List.mem_cons_of_mem _ hx))
    rw [List.flatten_cons, List.filter_cons]
    by_cases hb : blankChunk c = true
    · rw [splitBy_spaces (by simpa [blankChunk] using hb), ih]
      simp [hb]
    · have hn : NoSpace c := by
        rcases (hp c (by simp)).2 with h | h
        · exfalso; exact hb (by unfold blankChunk; exact List.all_eq_true.2 h)
        · exact h
      rw [splitBy, splitByAux_word _ _ _ _ hn, List.append_nil, splitByAux_sep, ih]
      · simp [hb]
      · simpa using (hp c (by simp)).1
      · intro x hx
        cases cs with
        | nil => cases hx
        | cons d r =>
          have hd : AllSpace d := by
            rcases ha.1 with h | h
            · exfalso
              cases c with
              | nil => exact (hp [] (by simp)).1 rfl
              | cons y c => exact absurd (h y (by simp)) (by simp [hn y (by simp)])
            · exact h
          cases d with
          | nil => exact absurd rfl (hp [] (by simp)).1
          | cons z d =>
            simp only [List.flatten_cons, List.cons_append, List.head?_cons, Option.some.injEq] at hx
            exact hx ▸ hd z (by simp)

/-! ### white space of the text -/

theorem isUniSpace_of_isSpaceChar {c : Char} (h : isSpaceChar c = true) : isUniSpace c = true := by
  simp only [isSpaceChar, Bool.or_eq_true, decide_eq_true_eq] at h
  rcases h with ((((rfl | rfl) | rfl) | rfl) | rfl) | rfl <;> decide

theorem splitByAux_blanks {p : Char → Bool} (hp : p ' ' = true) (t : List Char) : ∀ (k : Nat) (cur : List Char), splitByAux p cur (List.replicate (k + 1) ' ' ++ t) = splitByAux p cur (' ' :: t)
  | 0, _ => rfl
  | k + 1, cur => by
    rw [List.replicate_succ, List.cons_append, splitByAux, if_pos hp, splitByAux_blanks hp t k, splitByAux, splitByAux, if_pos hp, if_pos hp]
    simp

theorem splitByAux_expandTabs : ∀ (s : List Char) (col : Nat) (cur : List Char), splitByAux isUniSpace cur (expandTabs col s) = splitByAux isUniSpace cur s
  | [], _, _ => rfl
  | c :: cs, col, cur => by
    unfold expandTabs
    by_cases h : c = '\t'
    · subst h
      rw [if_pos rfl]
      have : 8 - col % 8 = (7 - col % 8) + 1 := by omega
      have h1 : isUniSpace ' ' = true := by decide
      have h2 : isUniSpace '\t' = true := by decide
      rw [this, splitByAux_blanks h1, splitByAux, splitByAux, if_pos h1, if_pos h2, splitByAux_expandTabs cs 0 []]
    · rw [if_neg h, splitByAux, splitByAux, splitByAux_expandTabs cs, splitByAux_expandTabs cs]

theorem splitByAux_map {f : Char → Char} (hf : ∀ c, f c = c ∨ (isUniSpace c = true ∧ isUniSpace (f c) = true)) : ∀ (s cur : List Char), splitByAux isUniSpace cur (s.map f) = splitByAux isUniSpace cur s
  | [], _ => rfl
  | c :: cs, cur => by
    rw [List.map_cons, splitByAux, splitByAux, splitByAux_map hf cs, splitByAux_map hf cs]
    rcases hf c with h | ⟨h1, h2⟩
    · rw [h]
    · rw [if_pos h1, if_pos h2]

theorem munge_char (c : Char) : (if isSpaceChar c then ' ' else c) = c ∨ (isUniSpace c = true ∧ isUniSpace (if isSpaceChar c then ' ' else c) = true) := by
  by_cases h : isSpaceChar c = true
  · right; exact ⟨isUniSpace_of_isSpaceChar h, by rw [if_pos h]; decide⟩
  · left; rw [if_neg h]

theorem words_munge (s : List Char) : splitBy isUniSpace (mungeWhitespace s) = splitBy isUniSpace s := by
  unfold mungeWhitespace splitBy
  rw [splitByAux_map munge_char, splitByAux_expandTabs]

theorem commonPrefix_mem {c : Char} : ∀ {a b : List Char}, c ∈ commonPrefix a b → c ∈ a
  | [], _, h => by simp [commonPrefix] at h
  | _ :: _, [], h => by simp [commonPrefix] at h
  | x :: a, y :: b, h => by
    unfold commonPrefix at h
    split at h
    · rcases List.mem_cons.1 h with rfl | h
      · simp
      · exact List.mem_cons_of_mem _ (commonPrefix_mem h)
    · cases h

theorem foldl_commonPrefix {P : Char → Prop} : ∀ {is : List (List Char)} {i : List Char}, (∀ c ∈ i, P c) → ∀ c ∈ is.foldl commonPrefix i, P c
  | [], _, h => h
  | b :: is, i, h => foldl_commonPrefix (is := is) (i := commonPrefix i b) (fun c hc => h c (commonPrefix_mem hc))

theorem blankTab_space {c : Char} (h : isBlankTab c = true) : isUniSpace c = true := by
  simp only [isBlankTab, Bool.or_eq_true, decide_eq_true_eq] at h
  rcases h with rfl | rfl <;> decide

theorem cutMargin_eq (m l : List Char) : cutMargin m l = l ∨ l = m ++ cutMargin m l := by
  unfold cutMargin
  by_cases h : m.isPrefixOf l = true
  · right
    rw [if_pos h]
    obtain ⟨r, rfl⟩ := List.isPrefixOf_iff_prefix.1 h
    rw [List.drop_left]
  · left; rw [if_neg h]

/-- `dedent` takes white space from the beginning of lines -/
theorem dedent_lines (s : List Char) : ∃ ls, dedent s = joinChars ['\n'] ls ∧ List.Forall₂ (fun l l' => ∃ a, AllSpace a ∧ l = a ++ l') (splitChars '\n' s) ls := by
  have h0 : List.Forall₂ (fun l l' => ∃ a, AllSpace a ∧ l = a ++ l') (splitChars '\n' s) ((splitChars '\n' s).map (fun l => if l.all isBlankTab then [] else l)) := by
    rw [List.forall₂_map_right_iff, List.forall₂_same]
    intro l _
    by_cases h : l.all isBlankTab = true
    · rw [if_pos h]
      refine ⟨l, ?_, by simp⟩
      intro c hc
      exact blankTab_space (List.all_eq_true.1 h c hc)
    · rw [if_neg h]; exact ⟨[], (by intro c hc; cases hc), rfl⟩
  unfold dedent
  dsimp only
  generalize (splitChars '\n' s).map (fun l => if l.all isBlankTab then [] else l) = ls at h0 ⊢
  split
  · exact ⟨ls, rfl, h0⟩
  · next i is he =>
    have hi : ∀ c ∈ i, isBlankTab c = true := by
      have : i ∈ (ls.filter (fun l => decide (l ≠ []))).map (fun l => l.takeWhile isBlankTab) := by rw [he]; simp
      obtain ⟨l, _, rfl⟩ := List.mem_map.1 this
      intro c hc
      exact List.mem_takeWhile_imp hc
    have hm := foldl_commonPrefix (is := is) hi
    refine ⟨_, rfl, ?_⟩
    generalize is.foldl commonPrefix i = m at hm
    rw [List.forall₂_map_right_iff]
    refine h0.imp ?_
    rintro l l' ⟨a, ha, rfl⟩
    rcases cutMargin_eq m l' with h | h
    · rw [h]; exact ⟨a, ha, rfl⟩
    · refine ⟨a ++ m, ?_, ?_⟩
      · intro c hc
        rcases List.mem_append.1 hc with hc | hc
        · exact ha c hc
        · exact blankTab_space (hm c hc)
      · rw [List.append_assoc, ← h]

theorem words_dedent (s : List Char) : splitBy isUniSpace (dedent s) = splitBy isUniSpace s := by
  obtain ⟨ls, h1, h2⟩ := dedent_lines s
  have hn : isUniSpace '\n' = true := by decide
  have e : splitBy isUniSpace s = (splitChars '\n' s).flatMap (splitBy isUniSpace) := by
    rw [← splitBy_lines hn, joinChars_splitChars]
  rw [h1, splitBy_lines hn, e]
  clear e h1
  generalize splitChars '\n' s = xs at h2 ⊢
  induction h2 with
  | nil => rfl
  | @cons l l' r r' h _ ih =>
    obtain ⟨a, ha, rfl⟩ := h
    rw [List.flatMap_cons, List.flatMap_cons, splitBy_spaces ha]
    congr 1

/-- the letters are the letters of the words -/
theorem letters_words (s : List Char) : lettersOf s = (splitBy isUniSpace s).flatten := by
  have h := splitBy_words isUniSpace s
  generalize splitBy isUniSpace s = ws at h
  induction h with
  | nil => rfl
  | space hp _ ih => rw [lettersOf, List.filter_cons, hp]; exact ih
  | @word w s ws _ hn _ _ ih =>
    rw [lettersOf, List.filter_append, List.flatten_cons]
    congr 1
    rw [List.filter_eq_self]
    intro c hc
    simp [hn c hc]

theorem words_prepared (s : List Char) : splitBy isUniSpace (mungeWhitespace (stripUni (dedent s))) = splitBy isUniSpace s := by
  rw [words_munge, ← splitBy_of_words (DG.words_strip (dedent s)), words_dedent]

theorem munge_newline (s : List Char) : '\n' ∉ mungeWhitespace s := by
  unfold mungeWhitespace
  intro h
  obtain ⟨c, _, hc⟩ := List.mem_map.1 h
  split at hc
  · exact absurd hc (by decide)
  · next hn => subst hc; exact hn (by decide)

theorem expandTabs_mem {c : Char} : ∀ {s : List Char} {col : Nat}, c ∈ expandTabs col s → c = ' ' ∨ c ∈ s
  | [], _, h => by simp [expandTabs] at h
  | d :: s, col, h => by
    unfold expandTabs at h
    split at h
    · rcases List.mem_append.1 h with h | h
      · exact .inl (List.eq_of_mem_replicate h)
      · rcases expandTabs_mem h with h | h
        · exact .inl h
        · exact .inr (List.mem_cons_of_mem _ h)
    · rcases List.mem_cons.1 h with h | h
      · exact .inr (by rw [h]; simp)
      · rcases expandTabs_mem h with h | h
        · exact .inl h
        · exact .inr (List.mem_cons_of_mem _ h)

theorem words_hyphen {s : List Char} (h : '-' ∉ s) {t : List Char} (ht : splitBy isUniSpace t = splitBy isUniSpace s) : '-' ∉ t := by
  intro hm
  have : '-' ∈ lettersOf t := List.mem_filter.2 ⟨hm, by decide⟩
  rw [letters_words, ht, ← letters_words] at this
  exact h (List.mem_filter.1 this).1

/-! ### the lines -/

theorem takeFit_append (w : Nat) : ∀ (cs : List (List Char)) (len : Nat), (takeFit w len cs).1 ++ (takeFit w len cs).2 = cs
  | [], _ => rfl
  | c :: cs, len => by
    unfold takeFit
    split
    · simp [takeFit_append w cs]
    · rfl

theorem takeFit_len (w : Nat) : ∀ (cs : List (List Char)) (len : Nat), len ≤ w → len + chunksLen (takeFit w len cs).1 ≤ w
  | [], len, h => by simpa [takeFit, chunksLen] using h
  | c :: cs, len, h => by
    unfold takeFit
    split
    · next h1 =>
      have := takeFit_len w cs _ h1
      simp only [chunksLen, List.map_cons, List.sum_cons] at this ⊢
      omega
    · simpa [chunksLen] using h

theorem chunksLen_append (a b : List (List Char)) : chunksLen (a ++ b) = chunksLen a + chunksLen b := by
  simp [chunksLen]

theorem chunksLen_flatten (a : List (List Char)) : a.flatten.length = chunksLen a := by
  rw [List.length_flatten]; rfl

/-- the first line and what is left -/
def wrapStep (w : Nat) (started : Bool) (cs : List (List Char)) : List (List Char) × List (List Char) := breakLong w (takeFit w 0 (dropFirst started cs))

theorem breakLong_flatten (w : Nat) (r : List (List Char) × List (List Char)) : (breakLong w r).1.flatten ++ (breakLong w r).2.flatten = r.1.flatten ++ r.2.flatten := by
  unfold breakLong
  split
  · rfl
  · next c cs h =>
    split
    · simp only [List.flatten_append, List.flatten_cons, List.flatten_nil, List.append_nil, h, List.append_assoc]
      rw [← List.append_assoc (List.take _ c), List.take_append_drop]
    · rw [h]

theorem wrapStep_flatten (w : Nat) (started : Bool) (cs : List (List Char)) : (wrapStep w started cs).1.flatten ++ (wrapStep w started cs).2.flatten = (dropFirst started cs).flatten := by
  unfold wrapStep
  rw [breakLong_flatten, ← List.flatten_append, takeFit_append]

theorem breakLong_len {w : Nat} {r : List (List Char) × List (List Char)} (h : chunksLen r.1 ≤ w) : chunksLen (breakLong w r).1 ≤ w := by
  unfold breakLong
  split
  · exact h
  · split
    · rw [chunksLen_append]
      simp only [chunksLen, List.map_cons, List.map_nil, List.sum_cons, List.sum_nil, List.length_take] at h ⊢
      omega
    · exact h

theorem wrapStep_len (w : Nat) (started : Bool) (cs : List (List Char)) : chunksLen (wrapStep w started cs).1 ≤ w := by
  unfold wrapStep
  exact breakLong_len (by have := takeFit_len w (dropFirst started cs) 0 (Nat.zero_le _); omega)

theorem dropFirst_mem {started : Bool} {cs : List (List Char)} {c : List Char} (h : c ∈ dropFirst started cs) : c ∈ cs := by
  unfold dropFirst at h
  split at h
  · exact List.mem_of_mem_tail h
  · exact h

theorem takeFit_mem {w len : Nat} {cs : List (List Char)} {c : List Char} (h : c ∈ (takeFit w len cs).2) : c ∈ cs := by
  rw [← takeFit_append w cs len]
  exact List.mem_append_right _ h

/-- no chunk that is left is empty -/
theorem wrapStep_ne {w : Nat} {started : Bool} {cs : List (List Char)} (h : ∀ c ∈ cs, c ≠ []) : ∀ c ∈ (wrapStep w started cs).2, c ≠ [] := by
  have h2 : ∀ c ∈ (takeFit w 0 (dropFirst started cs)).2, c ≠ [] := fun c hc => h c (dropFirst_mem (takeFit_mem hc))
  intro c hc
  unfold wrapStep breakLong at hc
  split at hc
  · exact h2 c hc
  · next d ds he =>
    split at hc
    · next hl =>
      rcases List.mem_cons.1 hc with rfl | hc
      · intro e
        have := congrArg List.length e
        rw [List.length_drop, List.length_nil] at this
        omega
      · exact h2 c (by rw [he]; exact List.mem_cons_of_mem _ hc)
    · exact h2 c hc

theorem chunksLen_pos {cs : List (List Char)} (h : ∀ c ∈ cs, c ≠ []) (hne : cs ≠ []) : 0 < chunksLen cs := by
  cases cs with
  | nil => exact absurd rfl hne
  | cons c cs =>
    have := List.length_pos_iff.2 (h c (by simp))
    simp only [chunksLen, List.map_cons, List.sum_cons]
    omega

/-- each round uses up characters -/
theorem wrapStep_less {w : Nat} (hw : 0 < w) {started : Bool} {cs : List (List Char)} (h : ∀ c ∈ cs, c ≠ []) (hne : cs ≠ []) : chunksLen (wrapStep w started cs).2 < chunksLen cs := by
  have hf := congrArg List.length (wrapStep_flatten w started cs)
  rw [List.length_append, chunksLen_flatten, chunksLen_flatten, chunksLen_flatten] at hf
  cases cs with
  | nil => exact absurd rfl hne
  | cons c cs =>
    have hc := List.length_pos_iff.2 (h c (by simp))
    by_cases hd : (started && blankChunk ((c :: cs).headD [])) = true
    · have : dropFirst started (c :: cs) = cs := by unfold dropFirst; rw [if_pos hd]; rfl
      rw [this] at hf
      simp only [chunksLen, List.map_cons, List.sum_cons] at hf ⊢
      omega
    · have he : dropFirst started (c :: cs) = c :: cs := by unfold dropFirst; rw [if_neg hd]
      have : 0 < chunksLen (wrapStep w started (c :: cs)).1 := by
        unfold wrapStep
        rw [he]
        unfold takeFit
        by_cases hl : 0 + c.length ≤ w
        · rw [if_pos hl]
          unfold breakLong
          split
          · simp only [chunksLen, List.map_cons, List.sum_cons]; omega
          · split
            · rw [chunksLen_append]
              simp only [chunksLen, List.map_cons, List.sum_cons]; omega
            · simp only [chunksLen, List.map_cons, List.sum_cons]; omega
        · rw [if_neg hl]
          have h2 : c.length > w := by omega
          simp only [breakLong, if_pos h2, chunksLen, List.nil_append, List.map_cons, List.map_nil, List.sum_cons, List.sum_nil, List.length_take]
          omega
      rw [he] at hf
      omega

theorem blankChunk_iff {c : List Char} : blankChunk c = true ↔ AllSpace c := by
  unfold blankChunk AllSpace
  exact List.all_eq_true

theorem letters_append (a b : List Char) : lettersOf (a ++ b) = lettersOf a ++ lettersOf b := List.filter_append ..

theorem letters_space {a : List Char} (h : AllSpace a) : lettersOf a = [] := by
  unfold lettersOf
  rw [List.filter_eq_nil_iff]
  intro c hc
  simp [h c hc]

theorem dropFirst_cases (started : Bool) (cs : List (List Char)) : dropFirst started cs = cs ∨ ∃ c, AllSpace c ∧ cs = c :: dropFirst started cs := by
  unfold dropFirst
  split
  · next h =>
    cases cs with
    | nil => left; rfl
    | cons c cs =>
      right
      rw [Bool.and_eq_true] at h
      exact ⟨c, blankChunk_iff.1 h.2, rfl⟩
  · left; rfl

theorem dropLastBlank_cases (l : List (List Char)) : dropLastBlank l = l ∨ ∃ c, AllSpace c ∧ l = dropLastBlank l ++ [c] := by
  unfold dropLastBlank
  split
  · next h =>
    by_cases hl : l = []
    · left; rw [hl]; rfl
    · right
      refine ⟨l.getLast hl, ?_, (List.dropLast_append_getLast hl).symm⟩
      rw [List.getLastD_eq_getLast?, List.getLast?_eq_some_getLast hl] at h
      exact blankChunk_iff.1 h
  · left; rfl

theorem words_dropLast (l : List (List Char)) : splitBy isUniSpace (dropLastBlank l).flatten = splitBy isUniSpace l.flatten := by
  rcases dropLastBlank_cases l with h | ⟨c, hc, h⟩
  · rw [h]
  · conv => rhs; rw [h]
    rw [List.flatten_append, List.flatten_cons, List.flatten_nil, List.append_nil, splitBy_trail _ hc]

theorem wrapLines_succ (w n : Nat) (started : Bool) (cs : List (List Char)) : wrapLines w (n + 1) started cs =
    if cs = [] then [] else if dropLastBlank (wrapStep w started cs).1 = [] then wrapLines w n started (wrapStep w started cs).2
      else (dropLastBlank (wrapStep w started cs).1).flatten :: wrapLines w n true (wrapStep w started cs).2 := rfl

/-- no letter is lost -/
theorem letters_wrapLines {w : Nat} (hw : 0 < w) : ∀ (n : Nat) (started : Bool) (cs : List (List Char)), (∀ c ∈ cs, c ≠ []) → chunksLen cs < n → (wrapLines w n started cs).flatMap lettersOf = lettersOf cs.flatten
  | 0, _, _, _, h => by omega
  | n + 1, started, cs, hne, h => by
    rw [wrapLines_succ]
    by_cases he : cs = []
    · subst he; rfl
    · rw [if_neg he]
      have h1 := wrapStep_less hw (started := started) hne he
      have ih := fun st => letters_wrapLines hw n st _ (wrapStep_ne (w := w) (started := started) hne) (by omega)
      have hf : lettersOf cs.flatten = lettersOf (wrapStep w started cs).1.flatten ++ lettersOf (wrapStep w started cs).2.flatten := by
        rw [← letters_append, wrapStep_flatten]
        rcases dropFirst_cases started cs with h | ⟨c, hc, h⟩
        · rw [h]
        · conv => lhs; rw [h]
          rw [List.flatten_cons, letters_append, letters_space hc]; rfl
      have hl : lettersOf (dropLastBlank (wrapStep w started cs).1).flatten = lettersOf (wrapStep w started cs).1.flatten := by
        rw [letters_words, letters_words, words_dropLast]
      by_cases hd : dropLastBlank (wrapStep w started cs).1 = []
      · rw [if_pos hd, ih, hf, ← hl, hd]; rfl
      · rw [if_neg hd, List.flatMap_cons, ih, hf, hl]

theorem wrapLines_len {w : Nat} : ∀ (n : Nat) (started : Bool) (cs : List (List Char)), ∀ l ∈ wrapLines w n started cs, l.length ≤ w
  | 0, _, _, _, h => by cases h
  | n + 1, started, cs, l, h => by
    rw [wrapLines_succ] at h
    split at h
    · cases h
    · split at h
      · exact wrapLines_len n _ _ l h
      · rcases List.mem_cons.1 h with rfl | h
        · rw [chunksLen_flatten]
          have := wrapStep_len w started cs
          rcases dropLastBlank_cases (wrapStep w started cs).1 with e | ⟨c, _, e⟩
          · rw [e]; exact this
          · rw [e, chunksLen_append] at this; omega
        · exact wrapLines_len n _ _ l h

theorem wrapLines_chars {w : Nat} {x : Char} : ∀ (n : Nat) (started : Bool) (cs : List (List Char)), ∀ l ∈ wrapLines w n started cs, x ∈ l → x ∈ cs.flatten
  | 0, _, _, _, h, _ => by cases h
  | n + 1, started, cs, l, h, hx => by
    have hdf : x ∈ (dropFirst started cs).flatten → x ∈ cs.flatten := by
      intro h
      obtain ⟨c, hc, h⟩ := List.mem_flatten.1 h
      exact List.mem_flatten.2 ⟨c, dropFirst_mem hc, h⟩
    have h2 : x ∈ (wrapStep w started cs).2.flatten → x ∈ cs.flatten := by
      intro h
      apply hdf
      rw [← wrapStep_flatten w]
      exact List.mem_append_right _ h
    rw [wrapLines_succ] at h
    split at h
    · cases h
    · split at h
      · exact h2 (wrapLines_chars n _ _ l h hx)
      · rcases List.mem_cons.1 h with rfl | h
        · apply hdf
          rw [← wrapStep_flatten w]
          refine List.mem_append_left _ ?_
          rcases dropLastBlank_cases (wrapStep w started cs).1 with e | ⟨c, _, e⟩
          · rw [e] at hx; exact hx
          · rw [e, List.flatten_append]; exact List.mem_append_left _ hx
        · exact h2 (wrapLines_chars n _ _ l h hx)

/-! ### words that fit -/

theorem Alternating.append : ∀ {a b : List (List Char)}, Alternating (a ++ b) → Alternating a ∧ Alternating b
  | [], _, h => ⟨trivial, h⟩
  | [x], [], _ => ⟨trivial, trivial⟩
  | [x], y :: b, h => ⟨trivial, h.2⟩
  | x :: y :: a, b, h => by
    have := Alternating.append (a := y :: a) (b := b) h.2
    exact ⟨⟨h.1, this.1⟩, this.2⟩

theorem Alternating.head {c d : List Char} {cs : List (List Char)} (hc : AllSpace c) (h : Alternating (c :: cs)) (hd : AllSpace d) : Alternating (d :: cs) := by
  cases cs with
  | nil => trivial
  | cons x cs => exact ⟨.inl hd, h.2⟩

/-- chunks that can be wrapped without breaking a word -/
structure WrapOk (w : Nat) (cs : List (List Char)) : Prop where
  alt : Alternating cs
  piece : ∀ c ∈ cs, c ≠ [] ∧ (AllSpace c ∨ NoSpace c)
  short : ∀ c ∈ cs, ¬ AllSpace c → c.length ≤ w

theorem WrapOk.words {w : Nat} {cs : List (List Char)} (h : WrapOk w cs) : splitBy isUniSpace cs.flatten = cs.filter (fun c => !blankChunk c) := splitBy_chunks h.alt h.piece

theorem wrapStep_ok {w : Nat} {started : Bool} {cs : List (List Char)} (h : WrapOk w cs) :
    WrapOk w (wrapStep w started cs).2 ∧ splitBy isUniSpace (wrapStep w started cs).1.flatten ++ splitBy isUniSpace (wrapStep w started cs).2.flatten = splitBy isUniSpace cs.flatten := by
  have h1 : WrapOk w (dropFirst started cs) ∧ splitBy isUniSpace (dropFirst started cs).flatten = splitBy isUniSpace cs.flatten := by
    rcases dropFirst_cases started cs with e | ⟨c, hc, e⟩
    · rw [e]; exact ⟨h, rfl⟩
    · refine ⟨⟨?_, fun d hd => h.piece d (dropFirst_mem hd), fun d hd => h.short d (dropFirst_mem hd)⟩, ?_⟩
      · have := h.alt
        rw [e, ← List.singleton_append] at this
        exact this.append.2
      · conv => rhs; rw [e]
        rw [List.flatten_cons, splitBy_spaces hc]
  rw [← h1.2]
  unfold wrapStep
  have h2 := h1.1
  clear h1 h
  generalize dropFirst started cs = ds at h2
  have ha := takeFit_append w ds 0
  generalize takeFit w 0 ds = r at ha
  obtain ⟨a, b⟩ := r
  dsimp only at ha
  subst ha
  have hA : WrapOk w a := ⟨h2.alt.append.1, fun c hc => h2.piece c (List.mem_append_left _ hc), fun c hc => h2.short c (List.mem_append_left _ hc)⟩
  have hB : WrapOk w b := ⟨h2.alt.append.2, fun c hc => h2.piece c (List.mem_append_right _ hc), fun c hc => h2.short c (List.mem_append_right _ hc)⟩
  have hw : splitBy isUniSpace (a ++ b).flatten = splitBy isUniSpace a.flatten ++ splitBy isUniSpace b.flatten := by
    rw [h2.words, hA.words, hB.words, List.filter_append]
  rw [hw]
  unfold breakLong
  dsimp only
  cases b with
  | nil => exact ⟨hB, rfl⟩
  | cons c b =>
    dsimp only
    split
    · next hl =>
      have hc : AllSpace c := by
        by_contra hn
        have := hB.short c (by simp) hn
        omega
      have hd : AllSpace (c.drop (w - chunksLen a)) := fun x hx => hc x (List.mem_of_mem_drop hx)
      have ht : AllSpace (c.take (w - chunksLen a)) := fun x hx => hc x (List.mem_of_mem_take hx)
      refine ⟨⟨hB.alt.head hc hd, ?_, ?_⟩, ?_⟩
      · intro x hx
        rcases List.mem_cons.1 hx with rfl | hx
        · refine ⟨?_, .inl hd⟩
          intro e
          have := congrArg List.length e
          rw [List.length_drop, List.length_nil] at this
          omega
        · exact hB.piece x (List.mem_cons_of_mem _ hx)
      · intro x hx hn
        rcases List.mem_cons.1 hx with rfl | hx
        · exact absurd hd hn
        · exact hB.short x (List.mem_cons_of_mem _ hx) hn
      · rw [List.flatten_append, List.flatten_cons, List.flatten_nil, List.append_nil, splitBy_trail _ ht, List.flatten_cons, splitBy_spaces hd, List.flatten_cons, splitBy_spaces hc]
    · exact ⟨hB, rfl⟩

theorem words_wrapLines {w : Nat} (hw : 0 < w) : ∀ (n : Nat) (started : Bool) (cs : List (List Char)), WrapOk w cs → chunksLen cs < n → (wrapLines w n started cs).flatMap (splitBy isUniSpace) = splitBy isUniSpace cs.flatten
  | 0, _, _, _, h => by omega
  | n + 1, started, cs, hok, h => by
    rw [wrapLines_succ]
    by_cases he : cs = []
    · subst he; rfl
    · rw [if_neg he]
      have h1 := wrapStep_less hw (started := started) (fun c hc => (hok.piece c hc).1) he
      obtain ⟨h2, h3⟩ := wrapStep_ok (started := started) hok
      have ih := fun st => words_wrapLines hw n st _ h2 (by omega)
      by_cases hd : dropLastBlank (wrapStep w started cs).1 = []
      · rw [if_pos hd, ih, ← h3, ← words_dropLast (wrapStep w started cs).1, hd]; rfl
      · rw [if_neg hd, List.flatMap_cons, ih, words_dropLast, h3]

end Dg
