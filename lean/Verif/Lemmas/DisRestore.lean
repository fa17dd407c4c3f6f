import Verif.Lemmas.DisSub

namespace Dg

/-! ### Restoring brackets -/

theorem subLit_skip (pat rep s rest : List Char) : subLit pat rep s.length (s ++ rest) = subLit pat rep 0 rest := by
  induction s with
  | nil => rfl
  | cons c s ih => rw [List.cons_append, List.length_cons, subLit, ih]

/-- undoing `e`, which writes the character `x` as `-`, three letters and `-` and some other characters as texts that begin with `-`, are free of `x`'s letters and end with `-` -/
theorem subLit_undo {a b c x : Char} (ha : a ≠ '-') (hb : b ≠ '-') (hcc : c ≠ '-') {e e' : Char → List Char} (hx : e x = ['-', a, b, c, '-']) (hx' : e' x = [x])
    (he : ∀ y, y ≠ x → (e y = [y] ∧ e' y = [y]) ∨ (∃ m, e y = '-' :: m ++ ['-'] ∧ e' y = e y ∧ '-' ∉ m ∧ ¬ [a, b, c] <+: m ++ ['-']))
    {s : List Char} (h : ¬ [a, b, c] <:+: s) : subLit ['-', a, b, c, '-'] [x] 0 (s.flatMap e) = s.flatMap e' := by
  -- an occurrence of the letters in the text with escapes is one in the text
  have pre1 : ∀ (d : Char) (p t : List Char), d ≠ '-' → (d :: p) <+: t.flatMap e → ∃ t', t = d :: t' ∧ p <+: t'.flatMap e := by
    intro d p t hd hp
    cases t with
    | nil => simp at hp
    | cons y t =>
      rw [List.flatMap_cons] at hp
      by_cases hyx : y = x
      · subst hyx
        rw [hx, List.cons_append, List.cons_prefix_cons] at hp
        exact absurd hp.1 hd
      · rcases he y hyx with ⟨h1, _⟩ | ⟨m, h1, _⟩
        · rw [h1, List.cons_append, List.nil_append, List.cons_prefix_cons] at hp
          exact ⟨t, by rw [hp.1], hp.2⟩
        · rw [h1, List.cons_append, List.cons_append, List.cons_prefix_cons] at hp
          exact absurd hp.1 hd
  have pre : ∀ t : List Char, [a, b, c, '-'] <+: t.flatMap e → [a, b, c] <+: t := by
    intro t ht
    obtain ⟨t1, rfl, h1⟩ := pre1 a _ t ha ht
    obtain ⟨t2, rfl, h2⟩ := pre1 b _ t1 hb h1
    obtain ⟨t3, rfl, _⟩ := pre1 c _ t2 hcc h2
    exact ⟨t3, rfl⟩
  induction s with
  | nil => rfl
  | cons y s ih =>
    have ih := ih (fun k => h (List.infix_cons k))
    have hs : ¬ [a, b, c, '-'] <+: s.flatMap e := fun k => h (List.infix_cons (pre s k).isInfix)
    rw [List.flatMap_cons, List.flatMap_cons]
    by_cases hyx : y = x
    · subst hyx
      rw [hx, hx', List.cons_append, subLit, if_pos (by rw [List.isPrefixOf_iff_prefix]; exact ⟨s.flatMap e, rfl⟩)]
      have := subLit_skip ['-', a, b, c, '-'] [y] [a, b, c, '-'] (s.flatMap e)
      rw [ih] at this
      exact congrArg ([y] ++ ·) this
    · rcases he y hyx with ⟨h1, h2⟩ | ⟨m, h1, h2, h3, h4⟩
      · rw [h1, h2, List.cons_append, List.nil_append, subLit, if_neg, ih]
        · rfl
        · rw [List.isPrefixOf_iff_prefix, List.cons_prefix_cons]
          exact fun k => hs k.2
      · rw [h2, h1]
        simp only [List.cons_append, List.append_assoc, List.nil_append]
        rw [subLit, if_neg]
        · rw [subLit_nohead h3, subLit, if_neg, ih]
          rw [List.isPrefixOf_iff_prefix, List.cons_prefix_cons]
          exact fun k => hs k.2
        · rw [List.isPrefixOf_iff_prefix, List.cons_prefix_cons]
          rintro ⟨_, k⟩
          apply h4
          obtain ⟨t, ht⟩ := k
          have : [a, b, c] <+: (m ++ ['-']) ++ s.flatMap e := ⟨'-' :: t, by rw [List.append_assoc]; simpa using ht⟩
          by_cases hlen : 3 ≤ (m ++ ['-']).length
          · exact List.prefix_of_prefix_length_le this (List.prefix_append _ _) (by simpa using hlen)
          · exfalso
            have hml : m.length < 2 := by simp at hlen; omega
            match m, hml with
            | [], _ =>
              simp only [List.nil_append, List.cons_append, List.cons.injEq] at ht
              exact ha ht.1
            | [z], _ =>
              simp only [List.nil_append, List.cons_append, List.cons.injEq] at ht
              exact hb ht.2.1

theorem restore_replace {s : List Char} (h1 : ¬ ['L', 'R', 'B'] <:+: s) (h2 : ¬ ['R', 'R', 'B'] <:+: s) : restoreBrackets (replaceBrackets s) = s := by
  unfold restoreBrackets
  rw [replaceBrackets_eq]
  have e1 := subLit_undo (a := 'L') (b := 'R') (c := 'B') (x := '(') (by decide) (by decide) (by decide) (e := escBracket) (e' := fun y => if y = ')' then rrb else [y]) rfl rfl (by
    intro y hy
    by_cases h : y = ')'
    · subst h
      exact .inr ⟨['R', 'R', 'B'], rfl, rfl, by decide, by decide⟩
    · exact .inl ⟨by simp [escBracket, hy, h], by simp [h]⟩) h1
  rw [lrb, e1]
  have e2 := subLit_undo (a := 'R') (b := 'R') (c := 'B') (x := ')') (by decide) (by decide) (by decide) (e := fun y => if y = ')' then rrb else [y]) (e' := fun y => [y]) rfl rfl (by
    intro y hy
    exact .inl ⟨by simp [hy], rfl⟩) h2
  rw [rrb] at e2 ⊢
  rw [e2]
  simp

/-! ### Reading a layout -/

mutual
theorem layout_refine {E : List (List Char) → List Char → Prop} {Q : List Char → Prop} : ∀ {t : PTree} {s : List Char}, DisLayout E t s → (∀ w ∈ t.leaves, Q w) → DisLayout (fun ws s => E ws s ∧ ∀ w ∈ ws, Q w) t s
  | _, _, .leaf h, _ => .leaf h
  | _, _, .text h1 h2 h3 h4 h5 h6, hq => .text h1 ⟨h2, fun w hw => hq w (by rw [PTree.leaves, PTree.leavesAll_leaf]; exact hw)⟩ h3 h4 h5 h6
  | _, _, .node h1 h2 h3 h4, hq => .node h1 h2 (layouts_refine h3 (fun w hw => hq w (by rw [PTree.leaves]; exact hw))) h4
theorem layouts_refine {E : List (List Char) → List Char → Prop} {Q : List Char → Prop} : ∀ {ks : List PTree} {s : List Char}, DisLayouts E ks s → (∀ w ∈ PTree.leavesAll ks, Q w) → DisLayouts (fun ws s => E ws s ∧ ∀ w ∈ ws, Q w) ks s
  | _, _, .nil, _ => .nil
  | _, _, .cons h1 h2 h3 h4, hq => .cons h1 h2 (layout_refine h3 (fun w hw => hq w (by simp [PTree.leavesAll, hw]))) (layouts_refine h4 (fun w hw => hq w (by simp [PTree.leavesAll, hw])))
end

mutual
theorem layout_real {E : List (List Char) → List Char → Prop} : ∀ {t : PTree} {s : List Char}, DisLayout E t s → t.Real
  | _, _, .leaf _ => .leaf
  | _, _, .text _ _ _ _ _ _ => .node (by intro k hk; obtain ⟨w, _, rfl⟩ := List.mem_map.1 hk; exact .leaf)
  | _, _, .node _ _ h3 _ => .node (layouts_real h3)
theorem layouts_real {E : List (List Char) → List Char → Prop} : ∀ {ks : List PTree} {s : List Char}, DisLayouts E ks s → ∀ k ∈ ks, k.Real
  | _, _, .nil => fun _ hk => nomatch hk
  | _, _, .cons _ _ h3 h4 => List.forall_mem_cons.2 ⟨layout_real h3, layouts_real h4⟩
end

mutual
theorem mapLeaves_comp (f g : List Char → List Char) : ∀ t : PTree, (t.mapLeaves f).mapLeaves g = t.mapLeaves (fun w => g (f w))
  | .leaf _ => rfl
  | .none => rfl
  | .node l ks => by rw [PTree.mapLeaves, PTree.mapLeaves, PTree.mapLeaves, mapLeavesAll_comp]
theorem mapLeavesAll_comp (f g : List Char → List Char) : ∀ ks : List PTree, PTree.mapLeavesAll g (PTree.mapLeavesAll f ks) = PTree.mapLeavesAll (fun w => g (f w)) ks
  | [] => rfl
  | k :: ks => by rw [PTree.mapLeavesAll, PTree.mapLeavesAll, PTree.mapLeavesAll, mapLeaves_comp, mapLeavesAll_comp]
end

theorem inLine_ne {ws : List (List Char)} {s : List Char} (h : InLine ws s) (hw : ∀ w ∈ ws, '\n' ∉ w) : '\n' ∉ s := by
  induction h with
  | one => exact hw _ (.head _)
  | cons _ _ h3 _ ih =>
    intro hx
    rcases List.mem_append.1 hx with hx | hx
    · exact hw _ (.head _) hx
    · rcases List.mem_append.1 hx with hx | hx
      · exact h3 hx
      · exact ih (fun w h => hw w (.tail _ h)) hx

theorem eduWords_newline {ws : List (List Char)} (h : EduWords ws) : ∀ w ∈ ws, '\n' ∉ w := by
  intro w hw hx
  have := (h.2 w hw).2.1 _ hx
  revert this
  decide

theorem eduWords_inner {ws : List (List Char)} (h : EduWords ws) {s : List Char} (hs : InLine ws s) : ¬ ['_', '!'] <:+: s := by
  intro k
  obtain ⟨w, hw, hx⟩ := infix_inLine (by simp) (by decide) hs k
  exact (h.2 w hw).2.2 hx

/-- the text behind the removal of comments -/
theorem fix_layout {t : PTree} {s : List Char} (h : DisLayout InLine t s) (hq : ∀ w ∈ t.leaves, NoEscape w) : ∃ s', DisLayout InLine t s' ∧ fixTreeStr s = s' := by
  have := layout_maps passes_fix (g := id) (E' := InLine) (fun _ _ => rfl) (fun ws s h1 h2 => by
    rw [List.map_id, List.map_id]
    refine ⟨h1, rfl, s, h2.1, ?_⟩
    intro rest
    obtain ⟨inner, rfl, hi⟩ := (inLine_disWords h1.1).1 h2.1
    have e : ['_', '!'] ++ (inner ++ ['_', '!']) = (['_', '!'] ++ inner ++ ['_']) ++ ['!'] := by simp
    have hn : ¬ ttErr <:+: ['_', '!'] ++ inner ++ ['_'] := by
      intro k
      obtain ⟨w, hw, hx⟩ := infix_inLine (p := ttErr) (by decide) (by decide) h2.1 (by rw [e]; exact k.trans (List.prefix_append _ _).isInfix)
      exact (h2.2 w hw).2.2 hx
    rw [e, List.append_assoc (['_', '!'] ++ inner ++ ['_'])]
    have := subLit_pass (rep := [')']) (e := '!') (by decide) (by decide) hn rest
    unfold fixTreeStr
    refine this.trans ?_
    simp) (layout_refine h hq)
  obtain ⟨s', h1, h2⟩ := this
  have h3 := h2 [] (fun _ h => nomatch h)
  rw [mapLeaves_id_aux id t (fun _ _ => rfl)] at h1
  rw [List.append_nil, passes_fix.nil, List.append_nil] at h3
  exact ⟨s', h1, h3⟩

/-- the text with escaped brackets -/
theorem convert_layout {t : PTree} {s : List Char} (h : DisLayout InLine t s) :
    ∃ s', DisLayout (fun ws s => InLine ws s ∧ ∀ w ∈ ws, w ≠ [] ∧ ∀ c ∈ w, isUniSpace c = false ∧ c ≠ '(' ∧ c ≠ ')') (t.mapLeaves replaceBrackets) s' ∧ convertParens s = s' := by
  have := layout_maps (passes_marks (fun c => c = '\n') replaceBrackets) (g := replaceBrackets)
    (E' := fun ws s => InLine ws s ∧ ∀ w ∈ ws, w ≠ [] ∧ ∀ c ∈ w, isUniSpace c = false ∧ c ≠ '(' ∧ c ≠ ')') (fun w hw => replaceBrackets_id (fun c hc => (hw.2.1 c hc).2)) (fun ws s h1 h2 => by
    have hew := eduWords_replace h1
    refine ⟨hew, disWords_replace ws, replaceBrackets s, ⟨inLine_replace h2, ?_⟩, ?_⟩
    · intro w hw
      obtain ⟨v, hv, rfl⟩ := List.mem_map.1 hw
      obtain ⟨u, hu, e⟩ := disWords_cases hv
      obtain ⟨u1, u2, _⟩ := h1.2 u hu
      have hmark : ∀ c ∈ ['_', '!'], isUniSpace c = false := by decide
      have hv : v ≠ [] ∧ ∀ c ∈ v, isUniSpace c = false := by
        rcases e with rfl | rfl | rfl | rfl
        · exact ⟨u1, u2⟩
        · refine ⟨by simp, fun c hc => ?_⟩
          rcases List.mem_append.1 hc with hc | hc
          · exact hmark c hc
          · exact u2 c hc
        · refine ⟨by simp, fun c hc => ?_⟩
          rcases List.mem_append.1 hc with hc | hc
          · exact u2 c hc
          · exact hmark c hc
        · refine ⟨by simp, fun c hc => ?_⟩
          rcases List.mem_append.1 hc with hc | hc
          · rcases List.mem_append.1 hc with hc | hc
            · exact hmark c hc
            · exact u2 c hc
          · exact hmark c hc
      refine ⟨replaceBrackets_ne hv.1, fun c hc => ?_⟩
      rcases replaceBrackets_mem hc with ⟨k1, k2⟩ | k
      · exact ⟨hv.2 c k1, k2⟩
      · exact (show ∀ c ∈ ['-', 'L', 'R', 'B'], isUniSpace c = false ∧ c ≠ '(' ∧ c ≠ ')' by decide) c k
    · intro rest
      obtain ⟨inner, rfl, hi⟩ := (inLine_disWords h1.1).1 h2
      refine subMarks_edu ?_ (eduWords_inner h1 hi) rest
      intro c hc
      simp only [decide_eq_false_iff_not]
      rintro rfl
      exact inLine_ne hi (eduWords_newline h1) hc) h
  obtain ⟨s', h1, h2⟩ := this
  have h3 := h2 [] (fun _ h => nomatch h)
  rw [List.append_nil, (passes_marks _ _).nil, List.append_nil] at h3
  exact ⟨s', h1, h3⟩

/-- the tree of a text -/
theorem tree_of_layout {l : List Char} {ks : List PTree} {s : List Char}
    (h : DisLayout (fun ws s => InLine ws s ∧ ∀ w ∈ ws, w ≠ [] ∧ ∀ c ∈ w, isUniSpace c = false ∧ c ≠ '(' ∧ c ≠ ')') (.node l ks) s) : treeFromString s = .ok (.node l ks) := by
  have := btokens_layout h [] (fun _ h => nomatch h)
  rw [List.append_nil] at this
  unfold treeFromString
  rw [this, show bracketTokens [] = [] by rw [bracketTokens], List.append_nil]
  exact bparse_complete (layout_real h)

/-- how a layout begins and ends -/
theorem layout_ends {E : List (List Char) → List Char → Prop} {l : List Char} {ks : List PTree} {s : List Char} (h : DisLayout E (.node l ks) s) : ∃ m, s = '(' :: (m ++ [')']) := by
  cases h with
  | text => exact ⟨_, by simp only [← List.append_assoc]; rfl⟩
  | node => exact ⟨_, by simp only [← List.append_assoc]; rfl⟩

theorem dropWhile_prefix {p : Char → Bool} {a b : List Char} (ha : ∀ c ∈ a, p c = true) {x : Char} (hx : p x = false) : (a ++ x :: b).dropWhile p = x :: b := by
  rw [List.dropWhile_append_of_pos ha, List.dropWhile_cons, if_neg (by rw [hx]; simp)]

theorem strip_layout {pre m post : List Char} (h1 : ∀ c ∈ pre, isUniSpace c = true) (h2 : ∀ c ∈ post, isUniSpace c = true) :
    stripUni (pre ++ ('(' :: (m ++ [')']) ++ post)) = '(' :: (m ++ [')']) := by
  unfold stripUni
  rw [List.cons_append, dropWhile_prefix h1 (by decide)]
  have : ('(' :: (m ++ [')'] ++ post)).reverse = post.reverse ++ ')' :: (m.reverse ++ ['(']) := by simp
  rw [this, dropWhile_prefix (fun c hc => h2 c (List.mem_reverse.1 hc)) (by decide)]
  simp

/-- reading a text in any layout -/
theorem disFile_layout {l : List Char} {ks : List PTree} {pre s post : List Char} (h1 : ∀ c ∈ pre, isUniSpace c = true) (h2 : ∀ c ∈ post, isUniSpace c = true) (h : DisLayout InLine (.node l ks) s)
    (hq : ∀ w ∈ (PTree.node l ks).leaves, NoEscape w) : disFile (pre ++ (s ++ post)) = .ok (.node l ks) := by
  obtain ⟨m, hm⟩ := layout_ends h
  have hs : stripUni (pre ++ (s ++ post)) = s := by rw [hm]; exact strip_layout h1 h2
  obtain ⟨s1, k1, k2⟩ := fix_layout h hq
  obtain ⟨s2, k3, k4⟩ := convert_layout k1
  rw [PTree.mapLeaves] at k3
  unfold disFile
  rw [hs, k2, k4, tree_of_layout k3]
  show Except.ok ((PTree.mapLeaves replaceBrackets (.node l ks)).mapLeaves restoreBrackets) = _
  rw [mapLeaves_comp, mapLeaves_id_aux _ _ (fun w hw => restore_replace (hq w hw).1 (hq w hw).2.1)]

end Dg
