import Verif.Model.Dot
import Batteries.Lean.Except
import Mathlib.Data.List.Basic

/-! C29: quoting for dot. -/

namespace Dg

theorem unescape_cons_ne {a : Char} {cs : List Char} (h : a ≠ '\\') : unescapeQuotes (a :: cs) = a :: unescapeQuotes cs := by
  cases cs with
  | nil => simp [unescapeQuotes]
  | cons b cs => simp [unescapeQuotes, h]

theorem escape_cons (c : Char) (cs : List Char) : escapeQuotes (c :: cs) = (if c = '"' then ['\\', '"'] else [c]) ++ escapeQuotes cs := by
  simp [escapeQuotes]

/-- an escaped text never starts with a quote -/
theorem escape_head (cs : List Char) : ∀ r, escapeQuotes cs ≠ '"' :: r := by
  cases cs with
  | nil => simp [escapeQuotes]
  | cons c cs =>
    intro r
    rw [escape_cons]
    split
    · simp
    · rename_i hc; simp [hc]

theorem unescape_escape (cs : List Char) : unescapeQuotes (escapeQuotes cs) = cs := by
  induction cs with
  | nil => rfl
  | cons c cs ih =>
    rw [escape_cons]
    split
    · rename_i h; subst h; simp [unescapeQuotes, ih]
    · rename_i h
      simp only [List.cons_append, List.nil_append]
      cases he : escapeQuotes cs with
      | nil => rw [he] at ih; simp only [unescapeQuotes] at ih ⊢; rw [← ih]
      | cons b r =>
        have hb : b ≠ '"' := by rintro rfl; exact escape_head cs r he
        rw [he] at ih
        simp only [unescapeQuotes]
        rw [if_neg (fun hh => hb hh.2), ih]

theorem newline_mem_escape (cs : List Char) : '\n' ∈ escapeQuotes cs ↔ '\n' ∈ cs := by
  unfold escapeQuotes
  simp only [List.mem_flatMap]
  constructor
  · rintro ⟨c, hc, h⟩
    split at h
    · simp at h
    · simp at h; subst h; exact hc
  · intro h; exact ⟨'\n', h, by simp⟩

theorem unquoteBody_quote (cs : List Char) : unquoteBody (quoteChars cs) = if '\n' ∈ cs then .error .attribute else .ok (escapeQuotes cs) := by
  have h1 : dropFinalNewline (quoteChars cs) = quoteChars cs := by
    unfold dropFinalNewline
    rw [if_neg]
    unfold quoteChars
    rw [← List.cons_append, List.getLast?_append]
    simp
  unfold unquoteBody
  rw [h1]
  unfold quoteChars
  simp only [List.getLast?_append, List.getLast?_singleton, Option.some_or, List.dropLast_concat, newline_mem_escape, true_and]
  by_cases h : '\n' ∈ cs <;> simp [h]

/-- **C29 (round trip)**.  For every string without line breaks, unquoting the quoted string gives back the string. -/
theorem c29_round_trip (cs : List Char) (h : '\n' ∉ cs) : unquoteChars (quoteChars cs) = .ok cs := by
  unfold unquoteChars
  rw [unquoteBody_quote, if_neg h]
  simp only [bind, Except.bind, unescape_escape]

/-- the restriction to strings without line breaks is necessary: every other string raises AttributeError -/
theorem c29_line_breaks_raise (cs : List Char) (h : '\n' ∈ cs) : unquoteChars (quoteChars cs) = .error .attribute := by
  unfold unquoteChars
  rw [unquoteBody_quote, if_pos h]
  rfl

/-- **C29 (uniqueness)**: different strings have different quoted forms -/
theorem c29_quote_injective {a b : List Char} (h : quoteChars a = quoteChars b) : a = b := by
  unfold quoteChars at h
  simp only [List.cons.injEq, true_and] at h
  have := List.append_cancel_right h
  rw [← unescape_escape a, this, unescape_escape]

/-- **C29 (inner quotes), partial**.  The quoted form starts and ends with a quote, and every quote in between directly follows a backslash.
Missing: that backslash may itself be escaped by a preceding one, see `c29_fails_for_backslash_before_quote`. -/
theorem c29_inner_quotes_escaped_partial (cs : List Char) : (∃ m, quoteChars cs = '"' :: m ++ ['"']) ∧
    ∀ x y, quoteChars cs = x ++ '"' :: y → x ≠ [] → y ≠ [] → ∃ x', x = x' ++ ['\\'] := by
  refine ⟨⟨_, rfl⟩, ?_⟩
  intro x y h hx hy
  cases x with
  | nil => exact absurd rfl hx
  | cons c x =>
    unfold quoteChars at h
    simp only [List.cons_append, List.cons.injEq] at h
    obtain ⟨rfl, h⟩ := h
    obtain ⟨y', z, rfl⟩ : ∃ y' z, y = y' ++ [z] := ⟨y.dropLast, y.getLast hy, (List.dropLast_append_getLast hy).symm⟩
    rw [show x ++ '"' :: (y' ++ [z]) = (x ++ '"' :: y') ++ [z] by simp] at h
    obtain ⟨h, _⟩ := List.append_inj' h rfl
    -- a quote in the escaped text follows a backslash
    have key : ∀ (cs x y : List Char), escapeQuotes cs = x ++ '"' :: y → ∃ x', x = x' ++ ['\\'] := by
      intro cs
      induction cs with
      | nil => intro x y h; simp [escapeQuotes] at h
      | cons c cs ih =>
        intro x y h
        rw [escape_cons] at h
        split at h
        · simp only [List.cons_append, List.nil_append] at h
          cases x with
          | nil => simp at h
          | cons a x =>
            simp only [List.cons_append, List.cons.injEq] at h
            obtain ⟨rfl, h⟩ := h
            cases x with
            | nil => exact ⟨[], rfl⟩
            | cons b x =>
              simp only [List.cons_append, List.cons.injEq] at h
              obtain ⟨_, h⟩ := h
              obtain ⟨x', rfl⟩ := ih x y h
              exact ⟨'\\' :: b :: x', rfl⟩
        · rename_i hc
          simp only [List.cons_append, List.nil_append] at h
          cases x with
          | nil => simp only [List.nil_append, List.cons.injEq] at h; exact absurd h.1 hc
          | cons a x =>
            simp only [List.cons_append, List.cons.injEq] at h
            obtain ⟨rfl, h⟩ := h
            obtain ⟨x', rfl⟩ := ih x y h
            exact ⟨c :: x', rfl⟩
    obtain ⟨x', hx'⟩ := key cs x y' h
    exact ⟨'"' :: x', by rw [hx']; rfl⟩

/-- How graphviz reads a quoted string after its opening quote: a backslash escapes the following character, the first quote that is not escaped ends the string.
Returns what follows the closing quote. -/
def afterString : List Char → Option (List Char)
  | [] => none
  | '"' :: rest => some rest
  | '\\' :: _ :: rest => afterString rest
  | _ :: rest => afterString rest

/-- for strings without backslashes, the closing quote is the one that was added at the end -/
theorem c29_closing_quote_partial (cs : List Char) (h : '\\' ∉ cs) : afterString (quoteChars cs).tail = some [] := by
  unfold quoteChars
  simp only [List.tail_cons]
  induction cs with
  | nil => rfl
  | cons c cs ih =>
    simp only [List.mem_cons, not_or] at h
    rw [escape_cons]
    split
    · simp only [List.cons_append, List.nil_append, afterString]; exact ih h.2
    · rename_i hc
      simp only [List.cons_append, List.nil_append]
      rw [afterString]
      · exact ih h.2
      · exact hc
      · intro a rest hr; exact fun _ => h.1 hr.symm

example : unquoteChars (quoteChars "a \"b\" \\\" c".toList) = .ok "a \"b\" \\\" c".toList := by decide +kernel
example : quoteChars "say \"a\"".toList = "\"say \\\"a\\\"\"".toList := by decide +kernel

/-- **C29 is violated** for a backslash in front of a quote (or at the end): the text `a\"b` is quoted as `"a\\"b"`, in which the second quote ends the string. -/
theorem c29_fails_for_backslash_before_quote :
    quoteChars "a\\\"b".toList = "\"a\\\\\"b\"".toList ∧ afterString (quoteChars "a\\\"b".toList).tail = some "b\"".toList ∧
    afterString (quoteChars "a\\".toList).tail = none := by decide +kernel

end Dg
