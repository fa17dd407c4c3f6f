import Verif.Model.Merge

/-! C26: keyword in context. -/

namespace Dg

/-- **C26**.  For every token list, every index into it and every window size, get_kwic returns the keyword and its neighbours: the list is
`pre ++ before ++ [keyword] ++ after ++ post`, the keyword is at the index, each side has at most `window` tokens, and fewer only at
the text boundary. -/
theorem c26_kwic_window {α : Type} (tokens : List α) (i w : Nat) (h : i < tokens.length) :
    ∃ before kw after pre post, getKwic tokens i w = .ok (before, kw, after) ∧
      tokens = pre ++ before ++ [kw] ++ after ++ post ∧ pre.length + before.length = i ∧
      before.length ≤ w ∧ after.length ≤ w ∧ (before.length < w → pre = []) ∧ (after.length < w → post = []) := by
  refine ⟨(tokens.drop (i - w)).take (i - (i - w)), tokens[i], (tokens.drop (i + 1)).take w, tokens.take (i - w), tokens.drop (i + 1 + w), ?_, ?_, ?_, ?_, ?_, ?_, ?_⟩
  · unfold getKwic
    have h1 : min tokens.length (i + 1) = i + 1 := by omega
    simp only [List.getElem?_eq_getElem h, h1]
    congr 3
    by_cases hw : i + w + 1 ≤ tokens.length
    · rw [Nat.min_eq_right hw]; congr 1; omega
    · rw [Nat.min_eq_left (by omega), List.take_of_length_le (by simp), List.take_of_length_le (by simp; omega)]
  · have e1 : tokens.take (i - w) ++ (tokens.drop (i - w)).take (i - (i - w)) = tokens.take i := by
      rw [← List.take_add]; congr 1; omega
    have e2 : (tokens.drop (i + 1)).take w ++ tokens.drop (i + 1 + w) = tokens.drop (i + 1) := by
      have := List.take_append_drop w (tokens.drop (i + 1)); rwa [List.drop_drop] at this
    rw [e1]
    simp only [List.append_assoc]
    rw [e2]
    simp
  · simp; omega
  · simp; omega
  · simp; omega
  · intro hb; simp at hb
    have : i - w = 0 := by omega
    simp [this]
  · intro ha; simp at ha
    apply List.drop_eq_nil_of_le; omega

/-- **C26 (invalid index)**: beyond the end of the text get_kwic raises IndexError. -/
theorem c26_index_error {α : Type} (tokens : List α) (i w : Nat) (h : tokens.length ≤ i) : getKwic tokens i w = .error .index := by
  unfold getKwic; simp [List.getElem?_eq_none h]

example : getKwic ["a", "b", "c", "d", "e"] 1 2 = .ok (["a"], "b", ["c", "d"]) := rfl

end Dg
