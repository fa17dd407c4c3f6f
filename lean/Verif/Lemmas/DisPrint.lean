import Verif.Lemmas.DisRestore
import Verif.Props.C34

namespace Dg

/-- how nltk prints EDUs: in one line, or each word in a line of its own -/
def Printed (ws : List (List Char)) (s : List Char) : Prop := s = joinChars [' '] ws ∨ ∃ n, s = joinChars ('\n' :: List.replicate n ' ') ws

/-- trees whose printed form is unambiguous -/
inductive Printable : PTree → Prop
  | leaf {w : List Char} : DisWord w → Printable (.leaf w)
  | text {ws : List (List Char)} : EduWords ws → Printable (.node ['t', 'e', 'x', 't'] ((Rst.disWords ws).map PTree.leaf))
  | node {l : List Char} {ks : List PTree} : DisWord l → (∀ k ∈ ks, Printable k) → Printable (.node l ks)

theorem flatForms_leaves (ws : List (List Char)) : PTree.flatForms (ws.map PTree.leaf) = ws := by
  induction ws with
  | nil => rfl
  | cons w ws ih => rw [List.map_cons, PTree.flatForms, ih]; rfl

theorem pformats_leaves (n : Nat) {ws : List (List Char)} (h : ws ≠ []) :
    PTree.pformats n (ws.map PTree.leaf) = '\n' :: List.replicate n ' ' ++ joinChars ('\n' :: List.replicate n ' ') ws := by
  induction ws with
  | nil => exact absurd rfl h
  | cons w ws ih =>
    rw [List.map_cons, PTree.pformats]
    cases ws with
    | nil => simp [PTree.pformats, joinChars, PTree.pformat]
    | cons v ws => rw [ih (by simp)]; simp [PTree.pformat, joinChars]

theorem blank_lit : Blank [' '] := by unfold Blank; decide

theorem blank_indent (n : Nat) : Blank ('\n' :: List.replicate n ' ') := by
  intro c hc
  rcases List.mem_cons.1 hc with rfl | hc
  · decide
  · rw [(List.mem_replicate.1 hc).2]; decide

theorem disWords_ne {ws : List (List Char)} (h : ws ≠ []) : Rst.disWords ws ≠ [] := by
  cases ws with
  | nil => exact absurd rfl h
  | cons w ws =>
    rw [Rst.disWords]
    cases ws <;> simp [Rst.disWords.closeLast]

theorem flat_layouts {ks : List PTree} (h : ∀ k ∈ ks, DisLayout Printed k k.flatForm) (hne : ks ≠ []) : DisLayouts Printed ks (' ' :: joinChars [' '] (PTree.flatForms ks)) := by
  induction ks with
  | nil => exact absurd rfl hne
  | cons k ks ih =>
    cases ks with
    | nil =>
      have := DisLayouts.cons (edu := Printed) (sep := [' ']) (by simp) blank_lit (h k (.head _)) .nil
      simpa [PTree.flatForms, joinChars] using this
    | cons k' ks =>
      have := DisLayouts.cons (edu := Printed) (sep := [' ']) (by simp) blank_lit (h k (.head _)) (ih (fun x hx => h x (.tail _ hx)) (by simp))
      simpa [PTree.flatForms, joinChars] using this

theorem indent_layouts (n : Nat) {ks : List PTree} (h : ∀ k ∈ ks, DisLayout Printed k (k.pformat n)) : DisLayouts Printed ks (PTree.pformats n ks) := by
  induction ks with
  | nil => exact .nil
  | cons k ks ih =>
    have := DisLayouts.cons (edu := Printed) (sep := '\n' :: List.replicate n ' ') (by simp) (blank_indent n) (h k (.head _)) (ih (fun x hx => h x (.tail _ hx)))
    rw [PTree.pformats]
    simpa using this

theorem text_flat {ws : List (List Char)} (h : EduWords ws) : DisLayout Printed (.node ['t', 'e', 'x', 't'] ((Rst.disWords ws).map PTree.leaf)) (PTree.node ['t', 'e', 'x', 't'] ((Rst.disWords ws).map PTree.leaf)).flatForm := by
  have := DisLayout.text (edu := Printed) (pre := []) (sep := [' ']) (post := []) h (.inl rfl) (by intro _ h; cases h) (by simp) blank_lit (by intro _ h; cases h)
  rw [PTree.flatForm, flatForms_leaves]
  simpa using this

theorem node_flat {l : List Char} {ks : List PTree} (hl : DisWord l) (h : ∀ k ∈ ks, DisLayout Printed k k.flatForm) : DisLayout Printed (.node l ks) (PTree.node l ks).flatForm := by
  by_cases hne : ks = []
  · subst hne
    have := DisLayout.node (edu := Printed) (pre := []) (post := [' ']) hl (by intro _ h; cases h) .nil blank_lit
    simpa [PTree.flatForm, PTree.flatForms, joinChars] using this
  · have := DisLayout.node (edu := Printed) (pre := []) (post := []) hl (by intro _ h; cases h) (flat_layouts h hne) (by intro _ h; cases h)
    rw [PTree.flatForm]
    simpa using this

/-- the printed tree is a layout of it -/
theorem printed_layout {t : PTree} (h : Printable t) : DisLayout Printed t t.flatForm ∧ ∀ n, DisLayout Printed t (t.pformat n) := by
  induction h with
  | leaf h => exact ⟨.leaf h, fun n => .leaf h⟩
  | @text ws h =>
    refine ⟨text_flat h, fun n => ?_⟩
    rw [PTree.pformat]
    split
    · exact text_flat h
    · have := DisLayout.text (edu := Printed) (pre := []) (sep := '\n' :: List.replicate (n + 2) ' ') (post := []) h (.inr ⟨n + 2, rfl⟩) (by intro _ h; cases h) (by simp) (blank_indent _) (by intro _ h; cases h)
      rw [pformats_leaves _ (disWords_ne h.1)]
      simpa using this
  | node hl _ ih =>
    refine ⟨node_flat hl (fun k hk => (ih k hk).1), fun n => ?_⟩
    rw [PTree.pformat]
    split
    · exact node_flat hl (fun k hk => (ih k hk).1)
    · have := DisLayout.node (edu := Printed) (pre := []) (post := []) hl (by intro _ h; cases h) (indent_layouts (n + 2) (fun k hk => (ih k hk).2 (n + 2))) (by intro _ h; cases h)
      simpa using this

/-! ### Joining lines -/

theorem joinChars_closeLast' (sep w : List Char) (ws : List (List Char)) :
    joinChars sep (Rst.disWords.closeLast w ws) = joinChars sep (w :: ws) ++ ['_', '!'] := by
  induction ws generalizing w with
  | nil => rfl
  | cons v vs ih =>
    rw [Rst.disWords.closeLast]
    have hc : ∃ x xs, Rst.disWords.closeLast v vs = x :: xs := by cases vs <;> exact ⟨_, _, rfl⟩
    obtain ⟨x, xs, hx⟩ := hc
    have := ih v
    rw [hx] at this ⊢
    rw [joinChars, this, joinChars]
    simp

theorem joinChars_marks (sep : List Char) {ws : List (List Char)} (h : ws ≠ []) : joinChars sep (Rst.disWords ws) = ['_', '!'] ++ (joinChars sep ws ++ ['_', '!']) := by
  cases ws with
  | nil => exact absurd rfl h
  | cons w ws =>
    rw [Rst.disWords, joinChars_closeLast']
    cases ws <;> simp [joinChars]

theorem infix_joinChars {p sep : List Char} (hne : p ≠ []) (hp : ∀ c ∈ p, isReSpace c = false) (hs : sep ≠ []) (hb : Blank sep) {ws : List (List Char)} (h : p <:+: joinChars sep ws) : ∃ w ∈ ws, p <:+: w := by
  induction ws with
  | nil => rw [joinChars] at h; exact absurd (List.infix_nil.1 h) hne
  | cons w ws ih =>
    cases ws with
    | nil => exact ⟨w, .head _, h⟩
    | cons v ws =>
      rw [joinChars, List.append_assoc] at h
      rcases infix_blank hne hp hs hb h with h | h
      · exact ⟨w, .head _, h⟩
      · obtain ⟨x, hx, k⟩ := ih h
        exact ⟨x, .tail _ hx, k⟩

theorem space_of_break {c : Char} (h : isLineBreak c = true) : isUniSpace c = true := by
  unfold isLineBreak at h
  unfold isUniSpace
  simp only [decide_eq_true_eq] at h ⊢
  omega

theorem lines_one {s : List Char} (h : ∀ c ∈ s, isLineBreak c = false) (cur : List Char) (hne : cur.reverse ++ s ≠ []) : latexLinesAux cur s = [cur.reverse ++ s] := by
  induction s generalizing cur with
  | nil =>
    rw [latexLinesAux, if_neg]
    · simp
    · rintro rfl; exact hne rfl
  | cons c s ih =>
    rw [latexLinesAux, if_neg (by rw [h c (.head _)]; simp), ih (fun x hx => h x (.tail _ hx)) _ (by simp)]
    simp

theorem lines_newline {s : List Char} (h : ∀ c ∈ s, isLineBreak c = false) (cur r : List Char) : latexLinesAux cur (s ++ '\n' :: r) = (cur.reverse ++ s ++ ['\n']) :: latexLinesAux [] r := by
  induction s generalizing cur with
  | nil => rw [List.nil_append, latexLinesAux, if_pos ⟨by decide, by simp⟩]; simp
  | cons c s ih =>
    rw [List.cons_append, latexLinesAux, if_neg (by rw [h c (.head _)]; simp), ih (fun x hx => h x (.tail _ hx))]
    simp

theorem filter_lines {s : List Char} (h : ∀ c ∈ s, isLineBreak c = false) : s.filter (fun c => !isLineBreak c) = s := by
  rw [List.filter_eq_self]
  intro c hc
  rw [h c hc]; rfl

theorem replicate_lines (k : Nat) {w : List Char} (h : ∀ c ∈ w, isUniSpace c = false) : ∀ c ∈ List.replicate k ' ' ++ w, isLineBreak c = false := by
  intro c hc
  rcases List.mem_append.1 hc with hc | hc
  · rw [(List.mem_replicate.1 hc).2]; decide
  · cases hb : isLineBreak c with
    | false => rfl
    | true => have := space_of_break hb; rw [h c hc] at this; cases this

theorem uniLines_indent (n k : Nat) {ws : List (List Char)} (h : ∀ w ∈ ws, w ≠ [] ∧ ∀ c ∈ w, isUniSpace c = false) {w : List Char} (hw : w ≠ [] ∧ ∀ c ∈ w, isUniSpace c = false) :
    uniLines (List.replicate k ' ' ++ joinChars ('\n' :: List.replicate n ' ') (w :: ws)) = (List.replicate k ' ' ++ w) :: ws.map (List.replicate n ' ' ++ ·) := by
  unfold uniLines
  induction ws generalizing w k with
  | nil =>
    rw [joinChars, lines_one (replicate_lines k hw.2) [] (by simp [hw.1])]
    simp only [List.reverse_nil, List.nil_append, List.map_cons, List.map_nil]
    rw [filter_lines (replicate_lines k hw.2)]
  | cons v ws ih =>
    have ih := ih n (fun x hx => h x (.tail _ hx)) (h v (.head _))
    rw [joinChars]
    have e : List.replicate k ' ' ++ (w ++ '\n' :: List.replicate n ' ' ++ joinChars ('\n' :: List.replicate n ' ') (v :: ws)) =
        (List.replicate k ' ' ++ w) ++ '\n' :: (List.replicate n ' ' ++ joinChars ('\n' :: List.replicate n ' ') (v :: ws)) := by simp
    rw [e, lines_newline (replicate_lines k hw.2), List.map_cons, ih, List.map_cons]
    congr 1
    rw [List.reverse_nil, List.nil_append, List.filter_append, filter_lines (replicate_lines k hw.2)]
    simp [isLineBreak]

theorem strip_word (n : Nat) {w : List Char} (h : w ≠ []) (hw : ∀ c ∈ w, isUniSpace c = false) : stripUni (List.replicate n ' ' ++ w) = w := by
  unfold stripUni
  have hb : ∀ c ∈ List.replicate n ' ', isUniSpace c = true := by
    intro c hc
    rw [(List.mem_replicate.1 hc).2]
    decide
  have key : ∀ l : List Char, (∀ c ∈ l, isUniSpace c = false) → l.dropWhile isUniSpace = l := by
    intro l hl
    cases l with
    | nil => rfl
    | cons c l => rw [List.dropWhile_cons, if_neg (by rw [hl c (.head _)]; simp)]
  rw [List.dropWhile_append_of_pos hb, key w hw, key w.reverse (fun c hc => hw c (List.mem_reverse.1 hc)), List.reverse_reverse]

theorem filter_newline {s : List Char} (h : '\n' ∉ s) : s.filter (fun c => c ≠ '\n') = s := by
  rw [List.filter_eq_self]
  intro c hc
  simp only [decide_eq_true_eq]
  rintro rfl
  exact h hc

theorem newline_words {ws : List (List Char)} (h : ∀ w ∈ ws, w ≠ [] ∧ ∀ c ∈ w, isUniSpace c = false) : '\n' ∉ joinChars [' '] ws := by
  refine newline_joinChars (fun w hw hx => ?_)
  have := (h w hw).2 _ hx
  revert this
  decide

theorem joinLines_indent (n : Nat) {ws : List (List Char)} (hne : ws ≠ []) (h : ∀ w ∈ ws, w ≠ [] ∧ ∀ c ∈ w, isUniSpace c = false) :
    joinLines (joinChars ('\n' :: List.replicate n ' ') ws) = joinChars [' '] ws := by
  cases ws with
  | nil => exact absurd rfl hne
  | cons w ws =>
    have := uniLines_indent n 0 (fun x hx => h x (.tail _ hx)) (h w (.head _))
    simp only [List.replicate_zero, List.nil_append] at this
    unfold joinLines
    rw [this, List.map_cons, List.map_map]
    have e : ws.map (stripUni ∘ (List.replicate n ' ' ++ ·)) = ws := by
      have : ws.map (stripUni ∘ (List.replicate n ' ' ++ ·)) = ws.map id := by
        refine List.map_congr_left (fun x hx => ?_)
        exact strip_word n (h x (.tail _ hx)).1 (h x (.tail _ hx)).2
      rw [this, List.map_id]
    have e0 : stripUni w = w := strip_word 0 (h w (.head _)).1 (h w (.head _)).2
    rw [e, e0, filter_newline (newline_words h)]

theorem joinLines_flat {ws : List (List Char)} (hne : ws ≠ []) (h : ∀ w ∈ ws, w ≠ [] ∧ ∀ c ∈ w, isUniSpace c = false) : joinLines (joinChars [' '] (Rst.disWords ws)) = joinChars [' '] (Rst.disWords ws) := by
  rw [joinChars_marks _ hne]
  generalize hi : joinChars [' '] ws = inner
  have hb : ∀ c ∈ inner, isLineBreak c = false := by
    rw [← hi]
    clear hi hne
    induction ws with
    | nil => intro c hc; cases hc
    | cons w ws ih =>
      have hw : ∀ c ∈ w, isLineBreak c = false := by simpa using replicate_lines 0 (h w (.head _)).2
      cases ws with
      | nil => exact hw
      | cons v ws =>
        intro c hc
        rw [joinChars] at hc
        rcases List.mem_append.1 hc with hc | hc
        · rcases List.mem_append.1 hc with hc | hc
          · exact hw c hc
          · rw [List.mem_singleton.1 hc]; decide
        · exact ih (fun x hx => h x (.tail _ hx)) c hc
  have hall : ∀ c ∈ ['_', '!'] ++ (inner ++ ['_', '!']), isLineBreak c = false := by
    have hm : ∀ c ∈ ['_', '!'], isLineBreak c = false := by decide
    intro c hc
    rcases List.mem_append.1 hc with hc | hc
    · exact hm c hc
    · rcases List.mem_append.1 hc with hc | hc
      · exact hb c hc
      · exact hm c hc
  have hnl : '\n' ∉ ['_', '!'] ++ (inner ++ ['_', '!']) := fun hx => absurd (hall _ hx) (by decide)
  unfold joinLines uniLines
  rw [lines_one hall [] (by simp)]
  simp only [List.reverse_nil, List.nil_append, List.map_cons, List.map_nil, joinChars]
  rw [filter_lines hall]
  have hst : stripUni (['_', '!'] ++ (inner ++ ['_', '!'])) = ['_', '!'] ++ (inner ++ ['_', '!']) := by
    unfold stripUni
    have : ['_', '!'] ++ (inner ++ ['_', '!']) = [] ++ '_' :: ('!' :: (inner ++ ['_', '!'])) := rfl
    rw [this, dropWhile_prefix (by intro _ h; cases h) (by decide)]
    have : ('_' :: ('!' :: (inner ++ ['_', '!']))).reverse = [] ++ '!' :: '_' :: (inner.reverse ++ ['!', '_']) := by simp
    rw [this, dropWhile_prefix (by intro _ h; cases h) (by decide)]
    simp
  rw [hst, filter_newline hnl]

theorem inLine_join {ws : List (List Char)} (h : ws ≠ []) : InLine ws (joinChars [' '] ws) := by
  induction ws with
  | nil => exact absurd rfl h
  | cons w ws ih =>
    cases ws with
    | nil => exact .one
    | cons v ws =>
      have := InLine.cons (w := w) (sep := [' ']) (by simp) blank_lit (by decide) (ih (by simp))
      simpa [joinChars] using this

theorem disWords_plain {ws : List (List Char)} (h : EduWords ws) : ∀ w ∈ Rst.disWords ws, w ≠ [] ∧ ∀ c ∈ w, isUniSpace c = false := by
  intro v hv
  obtain ⟨u, hu, e⟩ := disWords_cases hv
  obtain ⟨u1, u2, _⟩ := h.2 u hu
  have hmark : ∀ c ∈ ['_', '!'], isUniSpace c = false := by decide
  rcases e with rfl | rfl | rfl | rfl
  · exact ⟨u1, u2⟩
  · refine ⟨by simp, fun c hc => ?_⟩
    rcases List.mem_append.1 hc with hc | hc
    · exact hmark c hc
    · exact u2 c hc
  · refine ⟨by simp, fun c hc => ?_⟩
    rcases List.mem_append.1 hc with hc | hc
    · exact u2 c hc
    · exact hmark c hc
  · refine ⟨by simp, fun c hc => ?_⟩
    rcases List.mem_append.1 hc with hc | hc
    · rcases List.mem_append.1 hc with hc | hc
      · exact hmark c hc
      · exact u2 c hc
    · exact hmark c hc

/-- what is written is a layout of the tree with every EDU in one line -/
theorem toDis_layout {t : PTree} (h : Printable t) : DisLayout InLine t (toDisFormat t) := by
  have := layout_maps (passes_marks (fun _ => false) joinLines) (g := id) (E' := InLine) (fun _ _ => rfl) (fun ws s h1 h2 => by
    rw [List.map_id, List.map_id]
    have hp := disWords_plain h1
    have hne := disWords_ne h1.1
    have hj : joinLines s = joinChars [' '] (Rst.disWords ws) := by
      rcases h2 with rfl | ⟨n, rfl⟩
      · exact joinLines_flat h1.1 (fun w hw => ⟨(h1.2 w hw).1, (h1.2 w hw).2.1⟩)
      · exact joinLines_indent n hne hp
    refine ⟨h1, rfl, joinChars [' '] (Rst.disWords ws), inLine_join hne, fun rest => ?_⟩
    have hm : ∃ sep, sep ≠ [] ∧ Blank sep ∧ s = joinChars sep (Rst.disWords ws) := by
      rcases h2 with rfl | ⟨n, rfl⟩
      · exact ⟨_, by simp, blank_lit, rfl⟩
      · exact ⟨_, by simp, blank_indent n, rfl⟩
    obtain ⟨sep, hs1, hs2, hs⟩ := hm
    have := subMarks_edu (stop := fun _ => false) (f := joinLines) (inner := joinChars sep ws) (fun _ _ => rfl) (by
      intro k
      obtain ⟨w, hw, hx⟩ := infix_joinChars (by simp) (by decide) hs1 hs2 k
      exact (h1.2 w hw).2.2 hx) rest
    rw [← joinChars_marks sep h1.1, ← hs, hj] at this
    exact this) ((printed_layout h).2 0)
  obtain ⟨s', h1, h2⟩ := this
  have h3 := h2 [] (fun _ h => nomatch h)
  rw [List.append_nil, (passes_marks _ _).nil, List.append_nil] at h3
  rw [mapLeaves_id_aux id t (fun _ _ => rfl)] at h1
  unfold toDisFormat
  rw [h3]
  exact h1

/-! ### The trees of structures -/

theorem digit_plain {c : Char} (h : isDigitChar c = true) : isUniSpace c = false ∧ c ≠ '(' ∧ c ≠ ')' ∧ c ≠ '_' ∧ c ≠ 'L' ∧ c ≠ 'R' := by
  refine ⟨?_, ?_, ?_, ?_, ?_, ?_⟩
  · unfold isDigitChar at h
    unfold isUniSpace
    simp only [Bool.and_eq_true, decide_eq_true_eq, decide_eq_false_iff_not, Char.le_def, UInt32.le_iff_toNat_le] at h ⊢
    have h1 : c.toNat ≥ 48 := h.1
    have h2 : c.toNat ≤ 57 := h.2
    omega
  all_goals
    rintro rfl
    revert h
    decide

theorem decimal_word (n : Nat) : DisWord (decimal n) := by
  refine ⟨decimal_ne_nil n, ?_, ?_⟩
  · intro c hc
    have := digit_plain (decimal_digits n c hc)
    exact ⟨this.1, this.2.1, this.2.2.1⟩
  · rintro ⟨a, b, h⟩
    have : '_' ∈ decimal n := by rw [← h]; simp
    exact (digit_plain (decimal_digits n _ this)).2.2.2.1 rfl

theorem decimal_noEscape (n : Nat) : NoEscape (decimal n) := by
  refine ⟨?_, ?_, ?_⟩
  · rintro ⟨a, b, h⟩
    have : 'L' ∈ decimal n := by rw [← h]; simp
    exact (digit_plain (decimal_digits n _ this)).2.2.2.2.1 rfl
  · rintro ⟨a, b, h⟩
    have : 'R' ∈ decimal n := by rw [← h]; simp
    exact (digit_plain (decimal_digits n _ this)).2.2.2.2.2 rfl
  · rintro ⟨a, b, h⟩
    have : ')' ∈ decimal n := by rw [← h]; simp
    exact (digit_plain (decimal_digits n _ this)).2.2.1 rfl

theorem eduWords_split {s : List Char} (h : ∃ c ∈ s, isUniSpace c = false) (hm : ¬ ['_', '!'] <:+: s) : EduWords (splitWs s) :=
  ⟨splitWs_ne_nil h, fun _ hw => ⟨(splitWs_mem hw).1, (splitWs_mem hw).2, fun k => hm (k.trans (splitWs_infix hw))⟩⟩

theorem span_word : DisWord ['s', 'p', 'a', 'n'] := ⟨by simp, by decide, by decide⟩

theorem role_word {name : List Char} (h : DisWord name) (nucs : List Nuc) (n : Nuc) : DisWord (Rst.disRole name nucs n) := by
  cases n with
  | S => exact h
  | N =>
    by_cases hs : Nuc.S ∈ nucs
    · simp only [Rst.disRole, if_pos hs]; exact span_word
    · simp only [Rst.disRole, if_neg hs]; exact h

theorem range_printable (first count : Nat) : Printable (Rst.disRange first count) := by
  unfold Rst.disRange
  split
  · refine .node ⟨by simp, by decide, by decide⟩ (fun k hk => ?_)
    rw [List.mem_singleton.1 hk]
    exact .leaf (decimal_word _)
  · refine .node span_word (fun k hk => ?_)
    simp only [List.mem_cons, List.not_mem_nil, or_false] at hk
    rcases hk with rfl | rfl
    · exact .leaf (decimal_word _)
    · exact .leaf (decimal_word _)

theorem below_printable (T : Rst) (hwf : T.WellFormed) (hm : T.NoMarks) (hn : T.PlainNames) (first : Nat) : ∀ k ∈ Rst.disBelow first T, Printable k := by
  induction T using Rst.ind generalizing first with
  | h1 s =>
    intro k hk
    rw [Rst.disBelow, List.mem_singleton] at hk
    rw [hk]
    exact .text (eduWords_split (hwf.nonblank s (.refl _)) (hm s (.refl _)))
  | h2 name kids ih =>
    rw [Rst.disBelow]
    generalize kids.map Prod.fst = nucs
    have hname := hn name kids (.refl _)
    have key : ∀ (ks : List (Nuc × Rst)) (first : Nat), (∀ k ∈ ks, k ∈ kids) → ∀ k ∈ Rst.disParts first name nucs ks, Printable k := by
      intro ks
      induction ks with
      | nil => intro _ _ k hk; rw [Rst.disParts] at hk; cases hk
      | cons x ks ihk =>
        intro first hs k hk
        obtain ⟨n, t⟩ := x
        have hx : (n, t) ∈ kids := hs _ (.head _)
        rw [Rst.disParts, List.mem_cons] at hk
        rcases hk with rfl | hk
        · refine .node (by cases n <;> exact ⟨by simp [Rst.disLabel], by decide, by decide⟩) ?_
          intro k hk
          simp only [List.mem_cons] at hk
          rcases hk with rfl | rfl | hk
          · exact range_printable _ _
          · refine .node ⟨by simp, by decide, by decide⟩ (fun k hk => ?_)
            rw [List.mem_singleton.1 hk]
            exact .leaf (role_word hname nucs n)
          · exact ih (n, t) hx (hwf.kid hx) (hm.kid hx) (fun a b hp => hn a b (.kid hx hp)) _ k hk
        · exact ihk _ (fun y hy => hs y (.tail _ hy)) k hk
    exact key kids first (fun _ h => h)

theorem disDoc_printable {T : Rst} (hwf : T.WellFormed) (hm : T.NoMarks) (hn : T.PlainNames) : Printable T.disDoc := by
  refine .node ⟨by simp, by decide, by decide⟩ (fun k hk => ?_)
  rcases List.mem_cons.1 hk with rfl | hk
  · refine .node span_word (fun k hk => ?_)
    simp only [List.mem_cons, List.not_mem_nil, or_false] at hk
    rcases hk with rfl | rfl
    · exact .leaf ⟨by simp, by decide, by decide⟩
    · exact .leaf (decimal_word _)
  · exact below_printable T hwf hm hn 1 k hk

theorem mem_leavesAll {w : List Char} {ks : List PTree} (h : w ∈ PTree.leavesAll ks) : ∃ k ∈ ks, w ∈ k.leaves := by
  induction ks with
  | nil => cases h
  | cons k ks ih =>
    rw [PTree.leavesAll, List.mem_append] at h
    rcases h with h | h
    · exact ⟨k, .head _, h⟩
    · obtain ⟨x, hx, hw⟩ := ih h
      exact ⟨x, .tail _ hx, hw⟩

theorem span_noEscape : NoEscape ['s', 'p', 'a', 'n'] := by unfold NoEscape; decide

theorem below_noEscape (T : Rst) (he : T.NoEscapes) (first : Nat) : ∀ k ∈ Rst.disBelow first T, ∀ w ∈ k.leaves, NoEscape w := by
  induction T using Rst.ind generalizing first with
  | h1 s =>
    intro k hk w hw
    rw [Rst.disBelow, List.mem_singleton] at hk
    rw [hk, PTree.leaves, PTree.leavesAll_leaf] at hw
    exact noEscape_disWords (fun v hv => noEscape_infix (he.edus s (.refl _)) (splitWs_infix hv)) w hw
  | h2 name kids ih =>
    rw [Rst.disBelow]
    generalize kids.map Prod.fst = nucs
    have hname := he.names name kids (.refl _)
    have key : ∀ (ks : List (Nuc × Rst)) (first : Nat), (∀ k ∈ ks, k ∈ kids) → ∀ k ∈ Rst.disParts first name nucs ks, ∀ w ∈ k.leaves, NoEscape w := by
      intro ks
      induction ks with
      | nil => intro _ _ k hk; rw [Rst.disParts] at hk; cases hk
      | cons x ks ihk =>
        intro first hs k hk w hw
        obtain ⟨n, t⟩ := x
        have hx : (n, t) ∈ kids := hs _ (.head _)
        rw [Rst.disParts, List.mem_cons] at hk
        rcases hk with rfl | hk
        · rw [PTree.leaves] at hw
          obtain ⟨k, hk, hw⟩ := mem_leavesAll hw
          simp only [List.mem_cons] at hk
          rcases hk with rfl | rfl | hk
          · unfold Rst.disRange at hw
            split at hw
            · simp only [PTree.leaves, PTree.leavesAll, List.append_nil, List.mem_singleton] at hw
              rw [hw]; exact decimal_noEscape _
            · simp only [PTree.leaves, PTree.leavesAll, List.append_nil, List.mem_append, List.mem_singleton] at hw
              rcases hw with rfl | rfl
              · exact decimal_noEscape _
              · exact decimal_noEscape _
          · simp only [PTree.leaves, PTree.leavesAll, List.append_nil, List.mem_singleton] at hw
            rw [hw]
            cases n with
            | S => exact hname
            | N =>
              by_cases hs : Nuc.S ∈ nucs
              · simp only [Rst.disRole, if_pos hs]; exact span_noEscape
              · simp only [Rst.disRole, if_neg hs]; exact hname
          · exact ih (n, t) hx ⟨fun s hp => he.edus s (.kid hx hp), fun a b hp => he.names a b (.kid hx hp)⟩ _ k hk w hw
        · exact ihk _ (fun y hy => hs y (.tail _ hy)) k hk w hw
    exact key kids first (fun _ h => h)

theorem disDoc_noEscape {T : Rst} (he : T.NoEscapes) : ∀ w ∈ T.disDoc.leaves, NoEscape w := by
  intro w hw
  rw [Rst.disDoc, PTree.leaves] at hw
  obtain ⟨k, hk, hw⟩ := mem_leavesAll hw
  rcases List.mem_cons.1 hk with rfl | hk
  · simp only [PTree.leaves, PTree.leavesAll, List.append_nil, List.mem_append, List.mem_singleton] at hw
    rcases hw with rfl | rfl
    · unfold NoEscape; decide
    · exact decimal_noEscape _
  · exact below_noEscape T he 1 k hk w hw

end Dg
