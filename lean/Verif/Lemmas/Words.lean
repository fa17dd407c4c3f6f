import Verif.Spec.Words
import Verif.Model.Anaphoricity

/-! Splitting at white space. -/

namespace Dg

theorem splitByAux_words (p : Char → Bool) : ∀ (s cur : List Char), (∀ c ∈ cur, p c = false) →
    ∃ ws, splitByAux p cur s = ws ∧ Words p (cur.reverse ++ s) ws
  | [], cur, h => by
    unfold splitByAux
    by_cases hc : cur = []
    · subst hc; exact ⟨_, rfl, .nil⟩
    · rw [if_neg hc]
      exact ⟨_, rfl, .word (by simpa using hc) (by simpa using h) (by simp) .nil⟩
  | c :: r, cur, h => by
    unfold splitByAux
    by_cases hp : p c = true
    · rw [if_pos hp]
      obtain ⟨ws, e, hw⟩ := splitByAux_words p r [] (by simp)
      rw [e]
      by_cases hc : cur = []
      · subst hc; exact ⟨_, rfl, .space hp hw⟩
      · rw [if_neg hc]
        exact ⟨_, rfl, .word (by simpa using hc) (by simpa using h) (by simpa using hp) (.space hp hw)⟩
    · rw [if_neg hp]
      obtain ⟨ws, e, hw⟩ := splitByAux_words p r (c :: cur) (by
        intro d hd
        rcases List.mem_cons.1 hd with rfl | hd
        · simpa using hp
        · exact h d hd)
      exact ⟨ws, e, by simpa using hw⟩

theorem splitBy_words (p : Char → Bool) (s : List Char) : Words p s (splitBy p s) := by
  obtain ⟨ws, e, h⟩ := splitByAux_words p s [] (by simp)
  unfold splitBy
  rw [e]
  simpa using h

theorem splitByAux_word (p : Char → Bool) : ∀ (w s cur : List Char), (∀ c ∈ w, p c = false) → splitByAux p cur (w ++ s) = splitByAux p (w.reverse ++ cur) s
  | [], s, cur, _ => rfl
  | c :: w, s, cur, h => by
    rw [List.cons_append, splitByAux, if_neg (by simp [h c (by simp)]), splitByAux_word p w s _ (fun d hd => h d (List.mem_cons_of_mem _ hd))]
    simp

theorem splitByAux_sep {p : Char → Bool} {cur s : List Char} (hc : cur ≠ []) (hs : ∀ c, s.head? = some c → p c = true) : splitByAux p cur s = cur.reverse :: splitBy p s := by
  cases s with
  | nil => simp [splitByAux, splitBy, hc]
  | cons c s =>
    have := hs c rfl
    simp [splitByAux, splitBy, this, hc]

/-- the words of a text are determined -/
theorem splitBy_of_words {p : Char → Bool} {s : List Char} {ws : List (List Char)} (h : Words p s ws) : splitBy p s = ws := by
  induction h with
  | nil => rfl
  | space hp _ ih => rw [splitBy, splitByAux, if_pos hp]; exact ih
  | word hw hn hs _ ih => rw [splitBy, splitByAux_word p _ _ _ hn, splitByAux_sep (by simpa using hw) hs, ih]; simp

theorem Words.unique {p : Char → Bool} {s : List Char} {ws ws' : List (List Char)} (h : Words p s ws) (h' : Words p s ws') : ws = ws' := (splitBy_of_words h).symm.trans (splitBy_of_words h')

theorem Words.mem {p : Char → Bool} {s : List Char} {ws : List (List Char)} (h : Words p s ws) : ∀ w ∈ ws, w ≠ [] ∧ ∀ c ∈ w, p c = false := by
  induction h with
  | nil => simp
  | space _ _ ih => exact ih
  | word hw hn _ _ ih =>
    intro w h
    rcases List.mem_cons.1 h with rfl | h
    · exact ⟨hw, hn⟩
    · exact ih w h

theorem splitByAux_append_sep (p : Char → Bool) {c : Char} (hp : p c = true) (r : List Char) : ∀ (s cur : List Char), splitByAux p cur (s ++ c :: r) = splitByAux p cur (s ++ [c]) ++ splitBy p r
  | [], cur => by
    rw [List.nil_append, List.nil_append, splitByAux, splitByAux, if_pos hp, if_pos hp]
    by_cases hc : cur = [] <;> simp [hc, splitByAux, splitBy]
  | d :: s, cur => by
    rw [List.cons_append, List.cons_append, splitByAux, splitByAux]
    by_cases hd : p d = true
    · rw [if_pos hd, if_pos hd, splitByAux_append_sep p hp r s []]
      by_cases hc : cur = [] <;> simp [hc]
    · rw [if_neg hd, if_neg hd, splitByAux_append_sep p hp r s (d :: cur)]

theorem readLinesAux_split {p : Char → Bool} (hp : p '\n' = true) : ∀ (s cur : List Char), (readLinesAux cur s).flatMap (splitBy p) = splitBy p (cur.reverse ++ s)
  | [], cur => by
    unfold readLinesAux
    by_cases hc : cur = []
    · subst hc; rfl
    · simp [hc]
  | c :: r, cur => by
    unfold readLinesAux
    by_cases hc : c = '\n'
    · subst hc
      rw [if_pos rfl, List.flatMap_cons, readLinesAux_split hp r []]
      have := splitByAux_append_sep p hp r cur.reverse []
      unfold splitBy at this ⊢
      rw [this]
      simp
    · rw [if_neg hc, readLinesAux_split hp r (c :: cur)]
      simp

/-- splitting line by line is splitting the text -/
theorem readLines_split {p : Char → Bool} (hp : p '\n' = true) (s : List Char) : (readLines s).flatMap (splitBy p) = splitBy p s := readLinesAux_split hp s []

/-- words, each followed by a separator -/
theorem words_flatten {p : Char → Bool} {c : Char} (hp : p c = true) {ws : List (List Char)} (h : ∀ w ∈ ws, w ≠ [] ∧ ∀ c ∈ w, p c = false) : Words p (ws.flatMap (fun w => w ++ [c])) ws := by
  induction ws with
  | nil => exact .nil
  | cons w ws ih =>
    rw [List.flatMap_cons, List.append_assoc]
    exact .word (h w (by simp)).1 (h w (by simp)).2 (by simpa using hp) (.space hp (ih (fun w' hw => h w' (List.mem_cons_of_mem _ hw))))

end Dg
