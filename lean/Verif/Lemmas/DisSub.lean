import Verif.Lemmas.DisTokens

namespace Dg

/-! ### Occurrences -/

theorem infix_skip {c : Char} {p a b : List Char} (hc : c ∉ a) (h : c :: p <:+: a ++ b) : c :: p <:+: b := by
  induction a with
  | nil => exact h
  | cons x a ih =>
    rw [List.cons_append, List.infix_cons_iff] at h
    rcases h with h | h
    · obtain ⟨t, ht⟩ := h
      simp only [List.cons_append, List.cons.injEq] at ht
      exact absurd (by rw [ht.1]; exact .head _) hc
    · exact ih (fun hx => hc (.tail _ hx)) h

theorem infix_reverse {p s : List Char} (h : p <:+: s) : p.reverse <:+: s.reverse := List.reverse_infix.2 h

theorem infix_skip_end {c : Char} {p a b : List Char} (hc : c ∉ b) (h : p ++ [c] <:+: a ++ b) : p ++ [c] <:+: a := by
  have := infix_reverse h
  simp only [List.reverse_append, List.reverse_cons, List.reverse_nil, List.nil_append, List.cons_append] at this
  have := infix_reverse (infix_skip (fun hx => hc (List.mem_reverse.1 hx)) this)
  simpa using this

theorem prefix_split {c : Char} {p a b : List Char} (hc : c ∉ p) (h : p <+: a ++ c :: b) : p <+: a := by
  induction a generalizing p with
  | nil =>
    cases p with
    | nil => exact List.nil_prefix
    | cons x p =>
      obtain ⟨t, ht⟩ := h
      simp only [List.cons_append, List.nil_append, List.cons.injEq] at ht
      exact absurd (by rw [ht.1]; exact .head _) hc
  | cons x a ih =>
    cases p with
    | nil => exact List.nil_prefix
    | cons y p =>
      rw [List.cons_append, List.cons_prefix_cons] at h
      rw [List.cons_prefix_cons]
      exact ⟨h.1, ih (fun hx => hc (.tail _ hx)) h.2⟩

theorem infix_split {c : Char} {p a b : List Char} (hne : p ≠ []) (hc : c ∉ p) (h : p <:+: a ++ c :: b) : p <:+: a ∨ p <:+: b := by
  induction a with
  | nil =>
    rw [List.nil_append, List.infix_cons_iff] at h
    rcases h with h | h
    · cases p with
      | nil => exact absurd rfl hne
      | cons x p =>
        rw [List.cons_prefix_cons] at h
        exact absurd (by rw [h.1]; exact .head _) hc
    · exact .inr h
  | cons x a ih =>
    rw [List.cons_append, List.infix_cons_iff] at h
    rcases h with h | h
    · exact .inl (prefix_split (a := x :: a) hc h).isInfix
    · exact (ih h).imp (fun k => List.infix_cons k) id

theorem infix_blank {p a sep b : List Char} (hne : p ≠ []) (hp : ∀ c ∈ p, isReSpace c = false) (hs : sep ≠ []) (hb : Blank sep) (h : p <:+: a ++ (sep ++ b)) : p <:+: a ∨ p <:+: b := by
  cases sep with
  | nil => exact absurd rfl hs
  | cons c sep =>
    have hc : c ∉ p := fun hx => absurd (hp c hx) (by simp [hb.re (c := c) (.head _)])
    rcases infix_split hne hc h with h | h
    · exact .inl h
    · cases p with
      | nil => exact absurd rfl hne
      | cons x p =>
        refine .inr (infix_skip ?_ h)
        intro hx
        have := hb.re (c := x) (.tail _ hx)
        rw [hp x (.head _)] at this
        cases this

theorem infix_inLine {p : List Char} (hne : p ≠ []) (hp : ∀ c ∈ p, isReSpace c = false) {ws : List (List Char)} {s : List Char} (h : InLine ws s) (hi : p <:+: s) : ∃ w ∈ ws, p <:+: w := by
  induction h with
  | one => exact ⟨_, .head _, hi⟩
  | cons h1 h2 _ _ ih =>
    rcases infix_blank hne hp h1 h2 hi with h | h
    · exact ⟨_, .head _, h⟩
    · obtain ⟨w, hw, hx⟩ := ih h
      exact ⟨w, .tail _ hw, hx⟩

/-- words with marks -/
theorem disWords_cases {ws : List (List Char)} {w : List Char} (h : w ∈ Rst.disWords ws) : ∃ v ∈ ws, w = v ∨ w = ['_', '!'] ++ v ∨ w = v ++ ['_', '!'] ∨ w = ['_', '!'] ++ v ++ ['_', '!'] := by
  cases ws with
  | nil => cases h
  | cons v ws =>
    have key : ∀ (vs : List (List Char)) (u : List Char), w ∈ Rst.disWords.closeLast u vs → w = u ∨ w = u ++ ['_', '!'] ∨ ∃ v ∈ vs, w = v ∨ w = v ++ ['_', '!'] := by
      intro vs
      induction vs with
      | nil =>
        intro u hu
        simp only [Rst.disWords.closeLast, List.mem_singleton] at hu
        exact .inr (.inl hu)
      | cons x vs ih =>
        intro u hu
        simp only [Rst.disWords.closeLast, List.mem_cons] at hu
        rcases hu with rfl | hu
        · exact .inl rfl
        · rcases ih x hu with h | h | ⟨y, hy, h⟩
          · exact .inr (.inr ⟨x, .head _, .inl h⟩)
          · exact .inr (.inr ⟨x, .head _, .inr h⟩)
          · exact .inr (.inr ⟨y, .tail _ hy, h⟩)
    rw [Rst.disWords] at h
    rcases key ws _ h with h | h | ⟨y, hy, h | h⟩
    · exact ⟨v, .head _, .inr (.inl h)⟩
    · exact ⟨v, .head _, .inr (.inr (.inr h))⟩
    · exact ⟨y, .tail _ hy, .inl h⟩
    · exact ⟨y, .tail _ hy, .inr (.inr (.inl h))⟩

/-- marks do not create occurrences of a pattern that neither begins nor ends like a mark -/
theorem infix_disWords {x y : Char} {p : List Char} (hx : x ≠ '_' ∧ x ≠ '!') (hy : y ≠ '_' ∧ y ≠ '!') {ws : List (List Char)} {w : List Char} (h : w ∈ Rst.disWords ws) (hi : x :: p ++ [y] <:+: w) :
    ∃ v ∈ ws, x :: p ++ [y] <:+: v := by
  obtain ⟨v, hv, e⟩ := disWords_cases h
  have h1 : x ∉ ['_', '!'] := by simp [hx.1, hx.2]
  have h2 : y ∉ ['_', '!'] := by simp [hy.1, hy.2]
  refine ⟨v, hv, ?_⟩
  rcases e with rfl | rfl | rfl | rfl
  · exact hi
  · exact infix_skip h1 hi
  · exact infix_skip_end h2 hi
  · exact infix_skip h1 (infix_skip_end (a := ['_', '!'] ++ v) h2 hi)

theorem noEscape_disWords {ws : List (List Char)} (h : ∀ w ∈ ws, NoEscape w) : ∀ w ∈ Rst.disWords ws, NoEscape w := by
  intro w hw
  refine ⟨fun hi => ?_, fun hi => ?_, fun hi => ?_⟩
  · obtain ⟨v, hv, hx⟩ := infix_disWords (x := 'L') (p := ['R']) (y := 'B') (by decide) (by decide) hw hi
    exact (h v hv).1 hx
  · obtain ⟨v, hv, hx⟩ := infix_disWords (x := 'R') (p := ['R']) (y := 'B') (by decide) (by decide) hw hi
    exact (h v hv).2.1 hx
  · obtain ⟨v, hv, hx⟩ := infix_disWords (x := ')') (p := ['/', '/', 'T', 'T', '_', 'E', 'R']) (y := 'R') (by decide) (by decide) hw hi
    exact (h v hv).2.2 hx

theorem noEscape_infix {s w : List Char} (h : NoEscape s) (hw : w <:+: s) : NoEscape w := ⟨fun k => h.1 (k.trans hw), fun k => h.2.1 (k.trans hw), fun k => h.2.2 (k.trans hw)⟩

/-! ### Literal substitution -/

theorem subLit_nohead {c : Char} {p rep s : List Char} (h : c ∉ s) (rest : List Char) : subLit (c :: p) rep 0 (s ++ rest) = s ++ subLit (c :: p) rep 0 rest := by
  induction s with
  | nil => rfl
  | cons x s ih =>
    rw [List.cons_append, subLit, if_neg, ih (fun hx => h (.tail _ hx))]
    · rfl
    · simp only [List.isPrefixOf, Bool.and_eq_true, beq_iff_eq, not_and]
      rintro rfl
      exact absurd (.head _) h

theorem subLit_pass {pat rep s : List Char} {e : Char} (he : e ∉ pat) (hp : pat ≠ []) (h : ¬ pat <:+: s) (rest : List Char) :
    subLit pat rep 0 (s ++ e :: rest) = s ++ e :: subLit pat rep 0 rest := by
  induction s with
  | nil =>
    rw [List.nil_append, subLit, if_neg]
    · rfl
    · rw [List.isPrefixOf_iff_prefix]
      intro k
      exact hp (List.prefix_nil.1 (prefix_split (a := []) he k))
  | cons x s ih =>
    rw [List.cons_append, subLit, if_neg, ih (fun k => h (List.infix_cons k))]
    · rfl
    · rw [List.isPrefixOf_iff_prefix]
      intro k
      exact h (prefix_split (a := x :: s) he k).isInfix

theorem passes_fix : Passes fixTreeStr where
  nil := rfl
  blank := by
    intro c hc rest
    have : ')' ∉ [c] := by
      simp only [List.mem_singleton]
      rintro rfl
      rcases hc with h | h
      · cases h
      · cases h
    exact subLit_nohead this rest
  close := by
    intro rest hr
    unfold fixTreeStr
    rw [subLit, if_neg]
    rw [List.isPrefixOf_iff_prefix]
    rintro ⟨t, ht⟩
    simp only [ttErr, List.cons_append, List.cons.injEq] at ht
    have := hr '/' (by rw [← ht.2]; rfl)
    revert this
    decide
  word := by
    intro w hw rest _
    exact subLit_nohead (fun hx => (hw.2.1 _ hx).2.2 rfl) rest

/-! ### Marks -/

theorem inLine_cons {w u : List Char} {ws : List (List Char)} {s : List Char} (h : InLine ((u ++ w) :: ws) (s)) : ∃ s', s = u ++ s' ∧ InLine (w :: ws) s' := by
  cases h with
  | one => exact ⟨w, rfl, .one⟩
  | cons h1 h2 h3 h4 => exact ⟨_, by rw [List.append_assoc], .cons h1 h2 h3 h4⟩

theorem inLine_closeLast {w : List Char} {ws : List (List Char)} {s : List Char} (h : InLine (Rst.disWords.closeLast w ws) s) : ∃ inner, s = inner ++ ['_', '!'] ∧ InLine (w :: ws) inner := by
  induction ws generalizing w s with
  | nil =>
    simp only [Rst.disWords.closeLast] at h
    cases h with
    | one => exact ⟨w, rfl, .one⟩
    | cons h1 h2 h3 h4 => cases h4
  | cons v ws ih =>
    simp only [Rst.disWords.closeLast] at h
    generalize hq : Rst.disWords.closeLast v ws = q at h
    cases h with
    | one => cases ws <;> cases hq
    | cons h1 h2 h3 h4 =>
      obtain ⟨inner, rfl, h5⟩ := ih (hq ▸ h4)
      exact ⟨_, by simp only [List.append_assoc], .cons h1 h2 h3 h5⟩

theorem closeLast_inLine {w : List Char} {ws : List (List Char)} {inner : List Char} (h : InLine (w :: ws) inner) : InLine (Rst.disWords.closeLast w ws) (inner ++ ['_', '!']) := by
  induction ws generalizing w inner with
  | nil =>
    cases h with
    | one => exact .one
    | cons h1 h2 h3 h4 => cases h4
  | cons v ws ih =>
    cases h with
    | cons h1 h2 h3 h4 =>
      rw [Rst.disWords.closeLast, List.append_assoc, List.append_assoc]
      exact .cons h1 h2 h3 (ih h4)

theorem cons_inLine {w u : List Char} {ws : List (List Char)} {s : List Char} (h : InLine (w :: ws) s) : InLine ((u ++ w) :: ws) (u ++ s) := by
  cases h with
  | one => exact .one
  | cons h1 h2 h3 h4 => rw [← List.append_assoc]; exact .cons h1 h2 h3 h4

/-- the text of an EDU is enclosed by marks -/
theorem inLine_disWords {ws : List (List Char)} (hne : ws ≠ []) {s : List Char} : InLine (Rst.disWords ws) s ↔ ∃ inner, s = ['_', '!'] ++ (inner ++ ['_', '!']) ∧ InLine ws inner := by
  cases ws with
  | nil => exact absurd rfl hne
  | cons w ws =>
    rw [Rst.disWords]
    constructor
    · intro h
      obtain ⟨inner, rfl, h1⟩ := inLine_closeLast h
      obtain ⟨s', rfl, h2⟩ := inLine_cons h1
      exact ⟨s', by rw [List.append_assoc], h2⟩
    · rintro ⟨inner, rfl, h⟩
      have := closeLast_inLine (cons_inLine (u := ['_', '!']) h)
      rw [List.append_assoc] at this
      exact this

theorem closeMark_ok {stop : Char → Bool} {inner rest : List Char} (hs : ∀ c ∈ inner, stop c = false) (hm : ¬ ['_', '!'] <:+: inner) :
    closeMark stop (inner ++ '_' :: '!' :: rest) = some (inner, rest) := by
  induction inner with
  | nil => simp [closeMark]
  | cons c s ih =>
    rw [List.cons_append, closeMark, if_neg, if_neg (by rw [hs c (.head _)]; simp), ih (fun x hx => hs x (.tail _ hx)) (fun k => hm (List.infix_cons k))]
    · rfl
    · rintro ⟨rfl, h⟩
      cases s with
      | nil => simp at h
      | cons d s =>
        simp only [List.cons_append, List.head?_cons, Option.some.injEq] at h
        subst h
        exact hm ⟨[], s, rfl⟩

theorem subMarks_edu {stop : Char → Bool} {f : List Char → List Char} {inner : List Char} (hs : ∀ c ∈ inner, stop c = false) (hm : ¬ ['_', '!'] <:+: inner) (rest : List Char) :
    subMarks stop f (['_', '!'] ++ (inner ++ ['_', '!']) ++ rest) = f (['_', '!'] ++ (inner ++ ['_', '!'])) ++ subMarks stop f rest := by
  have h := closeMark_ok (rest := rest) hs hm
  have e : ['_', '!'] ++ (inner ++ ['_', '!']) ++ rest = '_' :: '!' :: (inner ++ '_' :: '!' :: rest) := by simp
  rw [e, subMarks, if_pos ⟨rfl, rfl⟩]
  split
  · rename_i i r he
    cases h.symm.trans he
    simp
  · rename_i he
    cases h.symm.trans he

theorem subMarks_word {stop : Char → Bool} {f : List Char → List Char} {w : List Char} (hw : ¬ ['_', '!'] <:+: w) {rest : List Char} (hr : rest.head? ≠ some '!') :
    subMarks stop f (w ++ rest) = w ++ subMarks stop f rest := by
  induction w with
  | nil => rfl
  | cons c w ih =>
    rw [List.cons_append, subMarks, if_neg, ih (fun k => hw (List.infix_cons k))]
    · rfl
    · rintro ⟨rfl, h⟩
      cases w with
      | nil => exact hr h
      | cons d w =>
        simp only [List.cons_append, List.head?_cons, Option.some.injEq] at h
        subst h
        exact hw ⟨[], w, rfl⟩

theorem subMarks_other {stop : Char → Bool} {f : List Char → List Char} {c : Char} (hc : c ≠ '_') (rest : List Char) : subMarks stop f (c :: rest) = c :: subMarks stop f rest := by
  rw [subMarks, if_neg (fun h => hc h.1)]

theorem passes_marks (stop : Char → Bool) (f : List Char → List Char) : Passes (subMarks stop f) where
  nil := by rw [subMarks]
  blank := by
    intro c hc rest
    refine subMarks_other ?_ rest
    rintro rfl
    rcases hc with h | h
    · cases h
    · cases h
  close := fun rest _ => subMarks_other (by decide) rest
  word := fun w hw rest hr => subMarks_word hw.2.2 (follows_ne hr (by decide))

/-! ### Brackets -/

/-- a bracket is written as `-LRB-`, `-RRB-` -/
def escBracket (c : Char) : List Char := if c = '(' then lrb else if c = ')' then rrb else [c]

theorem subLit_one (c : Char) (rep s : List Char) : subLit [c] rep 0 s = s.flatMap (fun x => if x = c then rep else [x]) := by
  induction s with
  | nil => rfl
  | cons x s ih =>
    rw [subLit, List.flatMap_cons]
    by_cases hx : x = c
    · subst hx
      simp [List.isPrefixOf, ih]
    · have : ¬ c = x := fun h => hx h.symm
      simp [List.isPrefixOf, ih, hx, this]

theorem replaceBrackets_eq (s : List Char) : replaceBrackets s = s.flatMap escBracket := by
  unfold replaceBrackets
  rw [subLit_one, subLit_one, List.flatMap_assoc]
  congr 1
  funext x
  unfold escBracket
  by_cases h1 : x = '('
  · subst h1; rfl
  · by_cases h2 : x = ')'
    · subst h2; rfl
    · simp [h1, h2]

theorem replaceBrackets_append (a b : List Char) : replaceBrackets (a ++ b) = replaceBrackets a ++ replaceBrackets b := by simp [replaceBrackets_eq]

theorem replaceBrackets_id {s : List Char} (h : ∀ c ∈ s, c ≠ '(' ∧ c ≠ ')') : replaceBrackets s = s := by
  rw [replaceBrackets_eq]
  induction s with
  | nil => rfl
  | cons c s ih =>
    rw [List.flatMap_cons, ih (fun x hx => h x (.tail _ hx)), escBracket, if_neg (h c (.head _)).1, if_neg (h c (.head _)).2]
    rfl

theorem replaceBrackets_mem {s : List Char} {c : Char} (h : c ∈ replaceBrackets s) : (c ∈ s ∧ c ≠ '(' ∧ c ≠ ')') ∨ c ∈ ['-', 'L', 'R', 'B'] := by
  rw [replaceBrackets_eq, List.mem_flatMap] at h
  obtain ⟨x, hx, h⟩ := h
  unfold escBracket at h
  split at h
  · right; revert h; simp only [lrb, List.mem_cons, List.not_mem_nil, or_false]; tauto
  · split at h
    · right; revert h; simp only [rrb, List.mem_cons, List.not_mem_nil, or_false]; tauto
    · rename_i h1 h2
      simp only [List.mem_singleton] at h
      subst h
      exact .inl ⟨hx, h1, h2⟩

theorem replaceBrackets_ne {s : List Char} (h : s ≠ []) : replaceBrackets s ≠ [] := by
  cases s with
  | nil => exact absurd rfl h
  | cons c s =>
    rw [replaceBrackets_eq, List.flatMap_cons]
    intro he
    have := (List.append_eq_nil_iff.1 he).1
    unfold escBracket at this
    split at this
    · cases this
    · split at this <;> cases this

theorem replaceBrackets_mark {s : List Char} (h : ¬ ['_', '!'] <:+: s) : ¬ ['_', '!'] <:+: replaceBrackets s := by
  induction s with
  | nil => exact h
  | cons c s ih =>
    intro hi
    have ih := ih (fun k => h (List.infix_cons k))
    rw [replaceBrackets_eq, List.flatMap_cons, ← replaceBrackets_eq] at hi
    unfold escBracket at hi
    split at hi
    · exact ih (infix_skip (by decide) hi)
    · split at hi
      · exact ih (infix_skip (by decide) hi)
      · rw [List.cons_append, List.nil_append, List.infix_cons_iff] at hi
        rcases hi with hi | hi
        · rw [List.cons_prefix_cons] at hi
          obtain ⟨rfl, t, ht⟩ := hi
          cases s with
          | nil => simp [replaceBrackets_eq] at ht
          | cons d s =>
            rw [replaceBrackets_eq, List.flatMap_cons] at ht
            unfold escBracket at ht
            split at ht
            · simp [lrb] at ht
            · split at ht
              · simp [rrb] at ht
              · simp only [List.cons_append, List.nil_append, List.cons.injEq] at ht
                obtain ⟨rfl, _⟩ := ht
                exact h ⟨[], s, rfl⟩
        · exact ih hi

theorem inLine_replace {ws : List (List Char)} {s : List Char} (h : InLine ws s) : InLine (ws.map replaceBrackets) (replaceBrackets s) := by
  induction h with
  | one => exact .one
  | @cons w sep s ws h1 h2 h3 _ ih =>
    rw [replaceBrackets_append, replaceBrackets_append, replaceBrackets_id (s := sep)]
    · exact .cons h1 h2 h3 ih
    · intro c hc
      constructor
      · rintro rfl; exact absurd (h2.re hc) (by decide)
      · rintro rfl; exact absurd (h2.re hc) (by decide)

theorem disWords_replace (ws : List (List Char)) : Rst.disWords (ws.map replaceBrackets) = (Rst.disWords ws).map replaceBrackets := by
  have hm : replaceBrackets ['_', '!'] = ['_', '!'] := by decide
  have key : ∀ (vs : List (List Char)) (u : List Char), Rst.disWords.closeLast (replaceBrackets u) (vs.map replaceBrackets) = (Rst.disWords.closeLast u vs).map replaceBrackets := by
    intro vs
    induction vs with
    | nil => intro u; simp [Rst.disWords.closeLast, replaceBrackets_append, hm]
    | cons v vs ih => intro u; simp [Rst.disWords.closeLast, ih]
  cases ws with
  | nil => rfl
  | cons w ws => rw [List.map_cons, Rst.disWords, Rst.disWords, ← key, replaceBrackets_append, hm]

theorem eduWords_replace {ws : List (List Char)} (h : EduWords ws) : EduWords (ws.map replaceBrackets) := by
  refine ⟨by simpa using h.1, ?_⟩
  intro w hw
  obtain ⟨v, hv, rfl⟩ := List.mem_map.1 hw
  obtain ⟨h1, h2, h3⟩ := h.2 v hv
  refine ⟨replaceBrackets_ne h1, ?_, replaceBrackets_mark h3⟩
  intro c hc
  rcases replaceBrackets_mem hc with ⟨hc, _⟩ | hc
  · exact h2 c hc
  · exact (show ∀ c ∈ ['-', 'L', 'R', 'B'], isUniSpace c = false by decide) c hc

end Dg
