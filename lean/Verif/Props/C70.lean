import Verif.Lemmas.DisPrint

/-!
**C70** The text of .dis files: a file in any layout is read as the rhetorical structure that it describes, with the brackets in the EDUs, and what the writer writes is read back.

`DisContent T s` (Spec/DisText.lean) says that `s` is the content of a .dis file for the structure `T`, with arbitrary white space between the parts and each EDU in one line.
-/

namespace Dg
open Rst

/-- **C70** (reading) a .dis file in any layout is read as the structure it describes.  Missing from the full claim: EDUs that contain the letters of an escaped bracket or the marks `_!`, EDUs that
are written in several lines, documents of one EDU; it fails for them (see below). -/
theorem c70_read_partial {T : Rst} {s : List Char} (h : DisContent T s) (hwf : WellFormed T) (hm : NoMarks T) (he : T.NoEscapes) (hrel : ∀ x, T ≠ .edu x) :
    disFile s = .ok T.disDoc ∧ readDistree s = .ok T.normalWs.tree := by
  obtain ⟨pre, body, post, rfl, h1, h2, h3⟩ := h
  have hd : disFile (pre ++ (body ++ post)) = .ok T.disDoc := disFile_layout h1 h2 h3 (disDoc_noEscape he)
  refine ⟨hd, ?_⟩
  unfold readDistree
  rw [hd]
  exact c34_read hwf hm hrel

/-- **C70** (writing) the file that is written is a .dis file for the structure, with each EDU in one line -/
theorem c70_write {T : Rst} (hwf : WellFormed T) (hm : NoMarks T) (hn : T.PlainNames) (hrel : ∀ x, T ≠ .edu x) : ∃ s, writeDis T.tree = .ok s ∧ DisContent T s := by
  refine ⟨toDisFormat T.disDoc, ?_, [], _, [], ?_, ?_, ?_, toDis_layout (disDoc_printable hwf hm hn)⟩
  · unfold writeDis
    rw [c34_write hwf hrel]
    rfl
  · simp
  · simp
  · simp

/-- **C70** (round trip) writing a structure to a .dis file and reading the file gives the structure, with the white space of the EDUs normalised.  Missing from the full claim: relation names that are
empty or contain white space or brackets, and what is missing from `c70_read_partial`. -/
theorem c70_write_read_partial {T : Rst} (hwf : WellFormed T) (hm : NoMarks T) (he : T.NoEscapes) (hn : T.PlainNames) (hrel : ∀ x, T ≠ .edu x) :
    ∃ s, writeDis T.tree = .ok s ∧ readDistree s = .ok T.normalWs.tree := by
  obtain ⟨s, h1, h2⟩ := c70_write hwf hm hn hrel
  exact ⟨s, h1, (c70_read_partial h2 hwf hm he hrel).2⟩

/-- a structure with brackets in its EDUs -/
def c70Example : Rst := .rel ['e', 'l', 'a', 'b'] [(.N, .edu ['a', ' ', '(', 'b']), (.S, .rel ['j'] [(.N, .edu [')', 'c']), (.N, .edu ['d'])])]

theorem c70_part_example {s : Rst} (h : Part s c70Example) : s = c70Example ∨ s = .edu ['a', ' ', '(', 'b'] ∨
    s = .rel ['j'] [(.N, .edu [')', 'c']), (.N, .edu ['d'])] ∨ s = .edu [')', 'c'] ∨ s = .edu ['d'] := by
  cases h with
  | refl => exact .inl rfl
  | kid hk h =>
    simp at hk
    rcases hk with ⟨_, rfl⟩ | ⟨_, rfl⟩
    · cases h; exact .inr (.inl rfl)
    · cases h with
      | refl => exact .inr (.inr (.inl rfl))
      | kid hk h =>
        simp at hk
        rcases hk with ⟨_, rfl⟩ | ⟨_, rfl⟩
        · cases h; exact .inr (.inr (.inr (.inl rfl)))
        · cases h; exact .inr (.inr (.inr (.inr rfl)))

theorem c70_example_wf : WellFormed c70Example := by
  constructor
  · intro name kids h
    rcases c70_part_example h with h | h | h | h | h <;> simp only [c70Example, Rst.rel.injEq, reduceCtorEq] at h
    · obtain ⟨rfl, rfl⟩ := h; exact ⟨.inl rfl, by decide, by decide⟩
    · obtain ⟨rfl, rfl⟩ := h; exact ⟨.inr (.inr ⟨by simp, by simp⟩), by decide, by decide⟩
  · intro s h
    rcases c70_part_example h with h | h | h | h | h <;> simp only [c70Example, Rst.edu.injEq, reduceCtorEq] at h <;> subst h <;> decide

theorem c70_example_marks : NoMarks c70Example := by
  intro s h
  rcases c70_part_example h with h | h | h | h | h <;> simp only [c70Example, Rst.edu.injEq, reduceCtorEq] at h <;> subst h <;> decide

theorem c70_example_escapes : c70Example.NoEscapes := by
  constructor
  · intro s h
    rcases c70_part_example h with h | h | h | h | h <;> simp only [c70Example, Rst.edu.injEq, reduceCtorEq] at h <;> subst h <;> unfold NoEscape <;> decide
  · intro name kids h
    rcases c70_part_example h with h | h | h | h | h <;> simp only [c70Example, Rst.rel.injEq, reduceCtorEq] at h <;> obtain ⟨rfl, _⟩ := h <;> unfold NoEscape <;> decide

theorem c70_example_names : c70Example.PlainNames := by
  intro name kids h
  rcases c70_part_example h with h | h | h | h | h <;> simp only [c70Example, Rst.rel.injEq, reduceCtorEq] at h <;> obtain ⟨rfl, _⟩ := h <;> exact ⟨by simp, by decide, by decide⟩

/-- the hypotheses of the theorems above hold for a document with brackets -/
example : ∃ s, writeDis c70Example.tree = .ok s ∧ DisContent c70Example s ∧ readDistree s = .ok c70Example.normalWs.tree := by
  obtain ⟨s, h1, h2⟩ := c70_write c70_example_wf c70_example_marks c70_example_names (by simp [c70Example])
  exact ⟨s, h1, h2, (c70_read_partial h2 c70_example_wf c70_example_marks c70_example_escapes (by simp [c70Example])).2⟩

/-! ### The parser -/

/-- **C70** (parser) the parser accepts exactly the texts whose tokens are the tokens of a tree, and gives that tree -/
theorem c70_parse (s : List Char) (t : PTree) : treeFromString s = .ok t ↔ (∃ l ks, t = .node l ks) ∧ t.Real ∧ bracketTokens s = t.btoks := by
  constructor
  · intro h
    have h1 := bparse_real _ _ _ _ h (by simp) (by simp)
    have h2 := bparse_sound _ _ _ _ h (by simp)
    refine ⟨h1.2, h1.1, ?_⟩
    simpa [PTree.btoksAll, stackToks] using h2
  · rintro ⟨⟨l, ks, rfl⟩, hr, h⟩
    unfold treeFromString
    rw [h]
    exact bparse_complete hr

/-- **C70** (parser) a text with different numbers of opening and closing brackets is rejected -/
theorem c70_unbalanced {s : List Char} (h : s.count '(' ≠ s.count ')') : ∀ t, treeFromString s ≠ .ok t := by
  intro t ht
  have h1 := ((c70_parse s t).1 ht).2.2
  have h2 := btokens_count s
  rw [h1, btoks_balanced] at h2
  exact h (h2.1.symm.trans h2.2)

example : (['(', 'a', ')', ')'] : List Char).count '(' ≠ (['(', 'a', ')', ')'] : List Char).count ')' := by decide

/-! ### Escaped brackets -/

theorem subLit_prefix {pat p : List Char} {x : Char} (hx : x ∉ p) {s : List Char} (h : p <+: subLit pat [x] 0 s) : p <+: s := by
  induction s generalizing p with
  | nil => exact h
  | cons c s ih =>
    cases p with
    | nil => exact List.nil_prefix
    | cons y p =>
      rw [subLit] at h
      split at h
      · rw [List.cons_append, List.cons_prefix_cons] at h
        exact absurd (by rw [h.1]; exact .head _) hx
      · rw [List.cons_prefix_cons] at h ⊢
        exact ⟨h.1, ih (fun k => hx (.tail _ k)) h.2⟩

theorem subLit_drop (pat rep : List Char) (n : Nat) (s : List Char) : subLit pat rep n s = subLit pat rep 0 (s.drop n) := by
  induction n generalizing s with
  | zero => rfl
  | succ n ih =>
    cases s with
    | nil => rfl
    | cons c s => rw [subLit, ih, List.drop_succ_cons]

theorem subLit_infix {pat p : List Char} {x : Char} (hp : p ≠ []) (hx : x ∉ p) (s : List Char) (h : p <:+: subLit pat [x] 0 s) : p <:+: s := by
  induction hn : s.length using Nat.strongRecOn generalizing s with
  | _ n ih =>
    subst hn
    cases s with
    | nil => exact h
    | cons c s =>
      rw [subLit] at h
      split at h
      · rw [subLit_drop] at h
        have h1 : p <:+: subLit pat [x] 0 (s.drop (pat.length - 1)) := by
          cases p with
          | nil => exact absurd rfl hp
          | cons y p =>
            refine infix_skip (a := [x]) ?_ h
            intro hy
            rw [List.mem_singleton.1 hy] at hx
            exact hx (.head _)
        have := ih _ (by simp only [List.length_drop, List.length_cons]; omega) _ h1 rfl
        exact List.infix_cons (this.trans (List.drop_suffix _ _).isInfix)
      · rw [List.infix_cons_iff] at h
        rcases h with h | h
        · cases p with
          | nil => exact absurd rfl hp
          | cons y p =>
            rw [List.cons_prefix_cons] at h
            have := subLit_prefix (fun k => hx (.tail _ k)) h.2
            exact (List.cons_prefix_cons.2 ⟨h.1, this⟩).isInfix
        · exact List.infix_cons (ih _ (by simp) _ h rfl)

theorem subLit_none {pat : List Char} {x : Char} (hp : pat ≠ []) (hx : x ∉ pat) (s : List Char) : ¬ pat <:+: subLit pat [x] 0 s := by
  induction hn : s.length using Nat.strongRecOn generalizing s with
  | _ n ih =>
    subst hn
    intro h
    cases s with
    | nil => exact hp (List.infix_nil.1 h)
    | cons c s =>
      rw [subLit] at h
      split at h
      · rw [subLit_drop] at h
        have h1 : pat <:+: subLit pat [x] 0 (s.drop (pat.length - 1)) := by
          generalize hq : subLit pat [x] 0 (s.drop (pat.length - 1)) = q at h ⊢
          cases pat with
          | nil => exact absurd rfl hp
          | cons y p =>
            refine infix_skip (a := [x]) ?_ h
            intro hy
            rw [List.mem_singleton.1 hy] at hx
            exact hx (.head _)
        exact ih _ (by simp only [List.length_drop, List.length_cons]; omega) _ rfl h1
      · rename_i hm
        rw [List.infix_cons_iff] at h
        rcases h with h | h
        · apply hm
          rw [List.isPrefixOf_iff_prefix]
          generalize hq : subLit pat [x] 0 s = q at h
          cases pat with
          | nil => exact absurd rfl hp
          | cons y p =>
            rw [List.cons_prefix_cons] at h ⊢
            exact ⟨h.1, subLit_prefix (fun k => hx (.tail _ k)) (hq ▸ h.2)⟩
        · exact ih _ (by simp) _ rfl h

mutual
theorem leaves_map (f : List Char → List Char) : ∀ t : PTree, (t.mapLeaves f).leaves = t.leaves.map f
  | .leaf _ => rfl
  | .none => rfl
  | .node l ks => by rw [PTree.mapLeaves, PTree.leaves, PTree.leaves, leavesAll_map f ks]
theorem leavesAll_map (f : List Char → List Char) : ∀ ks : List PTree, PTree.leavesAll (PTree.mapLeavesAll f ks) = (PTree.leavesAll ks).map f
  | [] => rfl
  | k :: ks => by rw [PTree.mapLeavesAll, PTree.leavesAll, PTree.leavesAll, leaves_map f k, leavesAll_map f ks, List.map_append]
end

/-- **C70** fails for EDUs that contain `-LRB-` or `-RRB-`: whatever the file, no leaf of a tree that is read contains them -/
theorem c70_fails_escapes {s : List Char} {t : PTree} (h : disFile s = .ok t) : ∀ w ∈ t.leaves, ¬ ['-', 'L', 'R', 'B', '-'] <:+: w ∧ ¬ ['-', 'R', 'R', 'B', '-'] <:+: w := by
  unfold disFile at h
  cases hq : treeFromString (convertParens (fixTreeStr (stripUni s))) with
  | error e => rw [hq] at h; cases h
  | ok q =>
    rw [hq] at h
    cases h
    intro w hw
    rw [leaves_map] at hw
    obtain ⟨v, _, rfl⟩ := List.mem_map.1 hw
    unfold restoreBrackets
    constructor
    · intro k
      exact subLit_none (by decide) (by decide) v (subLit_infix (by simp) (by decide) _ k)
    · exact subLit_none (by decide) (by decide) _

/-- **C70** fails for EDUs that contain `-LRB-`: they are read with an opening bracket -/
theorem c70_fails_escaped_edu :
    ((writeDis (Rst.rel ['j'] [(.N, .edu ['-', 'L', 'R', 'B', '-', 'x']), (.N, .edu ['y'])]).tree).bind readDistree).toOption.map PTree.leaves = some [['(', 'x'], ['y']] := by decide +kernel

/-- **C70** fails for relation names that contain a blank: only the first word is read -/
theorem c70_fails_name :
    ((writeDis (Rst.rel ['a', ' ', 'b'] [(.N, .edu ['x']), (.N, .edu ['y'])]).tree).bind readDistree).toOption.map PTree.flatForm = some (Rst.rel ['a'] [(.N, .edu ['x']), (.N, .edu ['y'])]).tree.flatForm := by decide +kernel

/-- **C70** fails for empty relation names: the file that is written cannot be read -/
theorem c70_fails_empty_name : ((writeDis (Rst.rel [] [(.N, .edu ['x']), (.N, .edu ['y'])]).tree).bind readDistree).isOk = false ∧
    (writeDis (Rst.rel [] [(.N, .edu ['x']), (.N, .edu ['y'])]).tree).isOk = true := by decide +kernel

/-- **C70** fails for EDUs that are written in several lines: the marks of the next EDU are paired wrongly, and its brackets are taken for brackets of the tree -/
theorem c70_fails_lines :
    (readDistree "(Root (span 1 2) (Nucleus (leaf 1) (rel2par j) (text _!a\n c_!)) (Nucleus (leaf 2) (rel2par j) (text _!d (e)_!)))".toList).isOk = false ∧
    (readDistree "(Root (span 1 2) (Nucleus (leaf 1) (rel2par j) (text _!a c_!)) (Nucleus (leaf 2) (rel2par j) (text _!d (e)_!)))".toList).toOption.map PTree.flatForm =
      some (Rst.rel ['j'] [(.N, .edu ['a', ' ', 'c']), (.N, .edu ['d', ' ', '(', 'e', ')'])]).tree.flatForm := by decide +kernel

/-! ### Comments -/

theorem subLit_cut {x : Char} {p rep : List Char} (hx : x ∉ p) (r : List Char) : ∀ (a : List Char) (n : Nat), n ≤ a.length →
    subLit (x :: p) rep n (a ++ x :: r) = subLit (x :: p) rep n a ++ subLit (x :: p) rep 0 (x :: r)
  | [], 0, _ => rfl
  | [], n + 1, h => by simp at h
  | c :: a, n + 1, h => by
    rw [List.cons_append, subLit, subLit]
    exact subLit_cut hx r a n (by simpa using h)
  | c :: a, 0, _ => by
    have hp : (x :: p).isPrefixOf (c :: (a ++ x :: r)) = (x :: p).isPrefixOf (c :: a) := by
      rw [Bool.eq_iff_iff, List.isPrefixOf_iff_prefix, List.isPrefixOf_iff_prefix, List.cons_prefix_cons, List.cons_prefix_cons]
      constructor
      · rintro ⟨h1, h2⟩
        exact ⟨h1, prefix_split hx h2⟩
      · rintro ⟨h1, h2⟩
        exact ⟨h1, h2.trans (List.prefix_append _ _)⟩
    rw [List.cons_append, subLit, subLit, hp]
    split
    · rename_i hm
      rw [List.isPrefixOf_iff_prefix] at hm
      have hl := hm.length_le
      rw [List.append_assoc]
      congr 1
      exact subLit_cut hx r a _ (by simpa using hl)
    · rw [List.cons_append]
      congr 1
      exact subLit_cut hx r a 0 (Nat.zero_le _)

/-- white space at the end removed -/
def stripEnd (s : List Char) : List Char := (s.reverse.dropWhile isUniSpace).reverse

theorem stripEnd_cons {x : Char} (hx : isUniSpace x = false) (a b : List Char) : stripEnd (a ++ x :: b) = a ++ x :: stripEnd b := by
  unfold stripEnd
  rw [List.reverse_append, List.reverse_cons, List.append_assoc]
  have : ∀ u : List Char, (u ++ ([x] ++ a.reverse)).dropWhile isUniSpace = u.dropWhile isUniSpace ++ ([x] ++ a.reverse) := by
    intro u
    induction u with
    | nil => simp [List.dropWhile_cons, hx]
    | cons c u ih =>
      rw [List.cons_append, List.dropWhile_cons, List.dropWhile_cons]
      split
      · exact ih
      · rfl
  rw [this]
  simp

theorem stripUni_cons {x : Char} (hx : isUniSpace x = false) (a b : List Char) : stripUni (a ++ x :: b) = a.dropWhile isUniSpace ++ x :: stripEnd b := by
  unfold stripUni
  have : (a ++ x :: b).dropWhile isUniSpace = a.dropWhile isUniSpace ++ x :: b := by
    induction a with
    | nil => simp [List.dropWhile_cons, hx]
    | cons c a ih =>
      rw [List.cons_append, List.dropWhile_cons, List.dropWhile_cons]
      split
      · exact ih
      · rfl
  rw [this]
  exact stripEnd_cons hx _ _

theorem stripEnd_prefix (b : List Char) : stripEnd b <+: b := by
  unfold stripEnd
  have := List.dropWhile_suffix isUniSpace (l := b.reverse)
  exact List.reverse_suffix.1 (by simpa using this)

/-- **C70** (comments) the comments `//TT_ERR` behind closing brackets, which occur in two files of the treebank, have no effect -/
theorem c70_comments (a b : List Char) (hb : ¬ ['/', '/', 'T', 'T', '_', 'E', 'R', 'R'] <+: b) : disFile (a ++ ([')', '/', '/', 'T', 'T', '_', 'E', 'R', 'R'] ++ b)) = disFile (a ++ ([')'] ++ b)) := by
  have key : fixTreeStr (stripUni (a ++ ([')', '/', '/', 'T', 'T', '_', 'E', 'R', 'R'] ++ b))) = fixTreeStr (stripUni (a ++ ([')'] ++ b))) := by
    have e1 : stripUni (a ++ ([')', '/', '/', 'T', 'T', '_', 'E', 'R', 'R'] ++ b)) = a.dropWhile isUniSpace ++ ')' :: (['/', '/', 'T', 'T', '_', 'E', 'R', 'R'] ++ stripEnd b) := by
      rw [List.cons_append, stripUni_cons (by decide)]
      congr 2
      exact stripEnd_cons (x := 'R') (by decide) ['/', '/', 'T', 'T', '_', 'E', 'R'] b
    have e2 : stripUni (a ++ ([')'] ++ b)) = a.dropWhile isUniSpace ++ ')' :: stripEnd b := stripUni_cons (by decide) a b
    rw [e1, e2]
    unfold fixTreeStr ttErr
    rw [subLit_cut (by decide) _ _ 0 (Nat.zero_le _), subLit_cut (by decide) _ _ 0 (Nat.zero_le _)]
    congr 1
    rw [subLit, if_pos (by rw [List.isPrefixOf_iff_prefix]; exact ⟨stripEnd b, rfl⟩), subLit, if_neg]
    · have := subLit_skip [')', '/', '/', 'T', 'T', '_', 'E', 'R', 'R'] [')'] ['/', '/', 'T', 'T', '_', 'E', 'R', 'R'] (stripEnd b)
      exact congrArg ([')'] ++ ·) this
    · rw [List.isPrefixOf_iff_prefix, List.cons_prefix_cons]
      exact fun k => hb (k.2.trans (stripEnd_prefix b))
  unfold disFile
  rw [key]

example : disFile "(a (b c)//TT_ERR)".toList = disFile "(a (b c))".toList := c70_comments ['(', 'a', ' ', '(', 'b', ' ', 'c'] [')'] (by decide)

/-! ### Files of the CODRA parser -/

/-- a text in which double quotes are written as in CODRA's files: behind three backslashes -/
def codraQuotes (s : List Char) : List Char := s.flatMap (fun c => if c = '"' then ['\\', '\\', '\\', '"'] else [c])

theorem codra_quotes {s : List Char} (h : '\\' ∉ s) : subLit tripleEscape ['"'] 0 (codraQuotes s) = s := by
  unfold codraQuotes
  induction s with
  | nil => rfl
  | cons c s ih =>
    have ih := ih (fun k => h (.tail _ k))
    rw [List.flatMap_cons]
    by_cases hc : c = '"'
    · subst hc
      simp only [if_true]
      have := subLit_skip tripleEscape ['"'] ['\\', '\\', '"'] (s.flatMap (fun c => if c = '"' then ['\\', '\\', '\\', '"'] else [c]))
      rw [ih] at this
      rw [List.cons_append, subLit, if_pos (by rw [List.isPrefixOf_iff_prefix]; exact ⟨_, rfl⟩)]
      exact congrArg (['"'] ++ ·) this
    · rw [if_neg hc, List.cons_append, List.nil_append, subLit, if_neg, ih]
      rw [List.isPrefixOf_iff_prefix, tripleEscape, List.cons_prefix_cons]
      rintro ⟨rfl, _⟩
      exact h (.head _)

theorem splitWsAux_append {w : List Char} (hw : ∀ c ∈ w, isUniSpace c = false) (cur r : List Char) : splitWsAux cur (w ++ r) = splitWsAux (w.reverse ++ cur) r := by
  induction w generalizing cur with
  | nil => rfl
  | cons c w ih =>
    rw [List.cons_append, splitWsAux, hw c (.head _)]
    simp only [Bool.false_eq_true, if_false]
    rw [ih (fun c hc => hw c (.tail _ hc))]
    simp

theorem splitWs_quotes (s cur : List Char) : splitWsAux (codraQuotes cur.reverse).reverse (codraQuotes s) = (splitWsAux cur s).map codraQuotes := by
  induction s generalizing cur with
  | nil =>
    have : (codraQuotes cur.reverse).reverse = [] ↔ cur = [] := by
      rw [List.reverse_eq_nil_iff]
      constructor
      · intro h
        cases hr : cur.reverse with
        | nil => simpa using hr
        | cons c r =>
          rw [hr, codraQuotes, List.flatMap_cons] at h
          have := (List.append_eq_nil_iff.1 h).1
          split at this <;> cases this
      · rintro rfl; rfl
    show splitWsAux _ [] = _
    rw [splitWsAux, splitWsAux]
    by_cases hc : cur = []
    · rw [if_pos (this.2 hc), if_pos hc]; rfl
    · rw [if_neg (fun k => hc (this.1 k)), if_neg hc]; simp
  | cons c s ih =>
    have hcons : codraQuotes (c :: s) = (if c = '"' then ['\\', '\\', '\\', '"'] else [c]) ++ codraQuotes s := rfl
    rw [hcons]
    by_cases hs : isUniSpace c = true
    · have hq : c ≠ '"' := by rintro rfl; revert hs; decide
      have ih0 := ih []
      simp only [List.reverse_nil] at ih0
      have h0 : (codraQuotes []).reverse = [] := rfl
      rw [h0] at ih0
      rw [if_neg hq, List.cons_append, List.nil_append, splitWsAux, splitWsAux, if_pos hs, if_pos hs]
      have : (codraQuotes cur.reverse).reverse = [] ↔ cur = [] := by
        rw [List.reverse_eq_nil_iff]
        constructor
        · intro h
          cases hr : cur.reverse with
          | nil => simpa using hr
          | cons c r =>
            rw [hr, codraQuotes, List.flatMap_cons] at h
            have := (List.append_eq_nil_iff.1 h).1
            split at this <;> cases this
        · rintro rfl; rfl
      by_cases hc : cur = []
      · rw [if_pos (this.2 hc), if_pos hc, ih0]
      · rw [if_neg (fun k => hc (this.1 k)), if_neg hc, ih0]; simp
    · have hs' : isUniSpace c = false := by simpa using hs
      rw [splitWsAux_append, splitWsAux, if_neg hs, ← ih (c :: cur)]
      · congr 1
        rw [List.reverse_cons, codraQuotes, codraQuotes, List.flatMap_append]
        simp
      · intro x hx
        split at hx
        · exact (show ∀ x ∈ ['\\', '\\', '\\', '"'], isUniSpace x = false by decide) x hx
        · rw [List.mem_singleton.1 hx]; exact hs'

theorem joinChars_quotes (ws : List (List Char)) : joinChars [' '] (ws.map codraQuotes) = codraQuotes (joinChars [' '] ws) := by
  induction ws with
  | nil => rfl
  | cons w ws ih =>
    cases ws with
    | nil => rfl
    | cons v ws =>
      rw [List.map_cons, List.map_cons, joinChars, joinChars, ← List.map_cons, ih]
      unfold codraQuotes
      simp

theorem dropStart_id {s : List Char} (h : ¬ ['_', '!'] <:+: s) : dropStartMark s = s := by
  unfold dropStartMark
  split
  · exact absurd ⟨[], _, rfl⟩ h
  · rfl

theorem dropEnd_id {s : List Char} (h : ¬ ['_', '!'] <:+: s) : dropEndMark s = s := by
  induction s with
  | nil => rfl
  | cons c s ih =>
    rw [dropEndMark, if_neg, if_neg, ih (fun k => h (List.infix_cons k))]
    · rintro ⟨rfl, rfl⟩
      exact h ⟨[], ['\n'], rfl⟩
    · rintro ⟨rfl, rfl⟩
      exact h ⟨[], [], rfl⟩

theorem quotes_mark {s : List Char} (h : ['_', '!'] <:+: codraQuotes s) : ['_', '!'] <:+: s := by
  induction s with
  | nil => exact h
  | cons c s ih =>
    have hcons : codraQuotes (c :: s) = (if c = '"' then ['\\', '\\', '\\', '"'] else [c]) ++ codraQuotes s := rfl
    rw [hcons] at h
    by_cases hc : c = '"'
    · rw [if_pos hc] at h
      exact List.infix_cons (ih (infix_skip (by decide) h))
    · rw [if_neg hc, List.cons_append, List.nil_append, List.infix_cons_iff] at h
      rcases h with h | h
      · rw [List.cons_prefix_cons] at h
        obtain ⟨rfl, t, ht⟩ := h
        cases s with
        | nil => simp [codraQuotes] at ht
        | cons d s =>
          rw [codraQuotes, List.flatMap_cons] at ht
          by_cases hd : d = '"'
          · rw [if_pos hd] at ht; simp at ht
          · rw [if_neg hd] at ht
            simp only [List.cons_append, List.nil_append, List.cons.injEq] at ht
            obtain ⟨rfl, _⟩ := ht
            exact ⟨[], s, rfl⟩
      · exact List.infix_cons (ih h)

/-- what is read for one EDU -/
theorem codra_edu {e : List Char} (hb : '\\' ∉ e) (hm : ¬ ['_', '!'] <:+: e) : codraEdu (joinChars [' '] (splitWs (codraQuotes e))) = joinChars [' '] (splitWs e) := by
  have h1 : splitWs (codraQuotes e) = (splitWs e).map codraQuotes := splitWs_quotes e []
  have hn : ¬ ['_', '!'] <:+: joinChars [' '] (splitWs e) := by
    intro k
    obtain ⟨w, hw, hx⟩ := mark_joinChars k
    exact hm (hx.trans (splitWs_infix hw))
  have hbs : '\\' ∉ joinChars [' '] (splitWs e) := by
    intro k
    have : ['\\'] <:+: joinChars [' '] (splitWs e) := by obtain ⟨a, b, h⟩ := List.append_of_mem k; exact ⟨a, b, by rw [h]; simp⟩
    obtain ⟨w, hw, hx⟩ := infix_joinChars (by simp) (by decide) (by simp) blank_lit this
    exact hb ((hx.trans (splitWs_infix hw)).subset (.head _))
  unfold codraEdu
  rw [h1, joinChars_quotes, dropStart_id (fun k => hn (quotes_mark k)), codra_quotes hbs, dropEnd_id hn]

theorem tree_mapLeaves (f : List Char → List Char) (T : Rst) : T.tree.mapLeaves f = (T.mapEdus f).tree := by
  induction T using Rst.ind with
  | h1 s => rfl
  | h2 name kids ih =>
    rw [Rst.tree, PTree.mapLeaves, mapEdus, Rst.tree, mapEdusAll_eq, mapLeavesAll_eq, treeAll_eq, treeAll_eq, List.map_map, List.map_map]
    congr 1
    refine List.map_congr_left (fun k hk => ?_)
    simp only [Function.comp, PTree.mapLeaves, PTree.mapLeavesAll, ih k hk]

theorem mapEdus_comp (f g : List Char → List Char) (T : Rst) : (T.mapEdus f).mapEdus g = T.mapEdus (fun s => g (f s)) := by
  induction T using Rst.ind with
  | h1 s => rfl
  | h2 name kids ih =>
    rw [mapEdus, mapEdus, mapEdus, mapEdusAll_eq, mapEdusAll_eq, mapEdusAll_eq, List.map_map]
    congr 1
    refine List.map_congr_left (fun k hk => ?_)
    simp only [Function.comp, ih k hk]

theorem part_mapEdus_edu {f : List Char → List Char} {T : Rst} {s : List Char} (h : Part (.edu s) (T.mapEdus f)) : ∃ e, Part (.edu e) T ∧ s = f e := by
  induction T using Rst.ind with
  | h1 e =>
    rw [mapEdus] at h
    cases h
    exact ⟨e, .refl _, rfl⟩
  | h2 name kids ih =>
    rw [mapEdus, mapEdusAll_eq] at h
    cases h with
    | kid hk hp =>
      obtain ⟨k, hk', e⟩ := List.mem_map.1 hk
      cases e
      obtain ⟨e, he, rfl⟩ := ih k hk' hp
      exact ⟨e, .kid (n := k.1) hk' he, rfl⟩

theorem part_mapEdus_rel {f : List Char → List Char} {T : Rst} {name : List Char} {kids : List (Nuc × Rst)} (h : Part (.rel name kids) (T.mapEdus f)) :
    ∃ ks, Part (.rel name ks) T ∧ kids = ks.map (fun k => (k.1, k.2.mapEdus f)) := by
  induction T using Rst.ind with
  | h1 e =>
    rw [mapEdus] at h
    cases h
  | h2 n ks ih =>
    rw [mapEdus, mapEdusAll_eq] at h
    cases h with
    | refl => exact ⟨ks, .refl _, rfl⟩
    | kid hk hp =>
      obtain ⟨k, hk', e⟩ := List.mem_map.1 hk
      cases e
      obtain ⟨x, hx, e⟩ := ih k hk' hp
      exact ⟨x, .kid (n := k.1) hk' hx, e⟩

/-- **C70** (CODRA) a file of the CODRA parser, in which double quotes are written behind three backslashes, is read as the structure with plain quotes.  Missing from the full claim: EDUs that contain
backslashes, and what is missing from `c70_read_partial`. -/
theorem c70_codra_partial {T : Rst} {s : List Char} (h : DisContent (T.mapEdus codraQuotes) s) (hwf : WellFormed T) (hm : NoMarks T) (he : (T.mapEdus codraQuotes).NoEscapes) (hb : ∀ e, Part (.edu e) T → '\\' ∉ e)
    (hrel : ∀ x, T ≠ .edu x) : readCodra s = .ok T.normalWs.tree := by
  have hwf' : WellFormed (T.mapEdus codraQuotes) := by
    constructor
    · intro name kids hp
      obtain ⟨ks, hks, rfl⟩ := part_mapEdus_rel hp
      have := hwf.relation name ks hks
      refine ⟨?_, this.2⟩
      have e : (ks.map (fun k => (k.1, k.2.mapEdus codraQuotes))).map Prod.fst = ks.map Prod.fst := by rw [List.map_map]; rfl
      rw [e]
      rcases this.1 with h | h | ⟨h1, h2⟩
      · exact .inl h
      · exact .inr (.inl h)
      · refine .inr (.inr ⟨by simpa using h1, ?_⟩)
        intro k hk
        obtain ⟨x, hx, rfl⟩ := List.mem_map.1 hk
        exact h2 x hx
    · intro x hp
      obtain ⟨e, he, rfl⟩ := part_mapEdus_edu hp
      obtain ⟨c, hc, hs⟩ := hwf.nonblank e he
      refine ⟨c, ?_, hs⟩
      rw [codraQuotes, List.mem_flatMap]
      refine ⟨c, hc, ?_⟩
      split
      · rename_i h; rw [h]; simp
      · simp
  have hm' : NoMarks (T.mapEdus codraQuotes) := by
    intro x hp
    obtain ⟨e, he, rfl⟩ := part_mapEdus_edu hp
    exact fun k => hm e he (quotes_mark k)
  have hrel' : ∀ x, T.mapEdus codraQuotes ≠ .edu x := by
    intro x
    cases T with
    | edu y => exact absurd rfl (hrel y)
    | rel n ks => simp [mapEdus]
  have hr := (c70_read_partial h hwf' hm' he hrel').2
  unfold readCodra
  rw [hr]
  show Except.ok ((T.mapEdus codraQuotes).normalWs.tree.mapLeaves codraEdu) = _
  rw [tree_mapLeaves, normalWs, mapEdus_comp, mapEdus_comp, normalWs, mapEdus_congr (fun e he => codra_edu (hb e he) (hm e he))]

/-- the parts of a relation between two EDUs -/
theorem two_parts {name a b : List Char} {s : Rst} (h : Part s (.rel name [(.N, .edu a), (.N, .edu b)])) : s = .rel name [(.N, .edu a), (.N, .edu b)] ∨ s = .edu a ∨ s = .edu b := by
  cases h with
  | refl => exact .inl rfl
  | kid hk h =>
    simp at hk
    rcases hk with ⟨_, rfl⟩ | ⟨_, rfl⟩
    · cases h; exact .inr (.inl rfl)
    · cases h; exact .inr (.inr rfl)

/-- the hypotheses hold for a document with a quotation -/
example : ∃ s, readCodra s = .ok (Rst.rel ['j'] [(.N, .edu ['a', ' ', '"', 'b', '"']), (.N, .edu ['c'])]).normalWs.tree := by
  let T : Rst := .rel ['j'] [(.N, .edu ['a', ' ', '"', 'b', '"']), (.N, .edu ['c'])]
  have hT : T.mapEdus codraQuotes = .rel ['j'] [(.N, .edu ['a', ' ', '\\', '\\', '\\', '"', 'b', '\\', '\\', '\\', '"']), (.N, .edu ['c'])] := rfl
  have wf : ∀ a b : List Char, (∃ c ∈ a, isUniSpace c = false) → (∃ c ∈ b, isUniSpace c = false) → WellFormed (.rel ['j'] [(.N, .edu a), (.N, .edu b)]) := by
    intro a b ha hb
    constructor
    · intro name kids h
      rcases two_parts h with h | h | h
      · cases h
        exact ⟨.inr (.inr ⟨by simp, by simp⟩), by decide, by decide⟩
      · cases h
      · cases h
    · intro s h
      rcases two_parts h with h | h | h <;> cases h
      · exact ha
      · exact hb
  have marks : ∀ a b : List Char, ¬ ['_', '!'] <:+: a → ¬ ['_', '!'] <:+: b → NoMarks (.rel ['j'] [(.N, .edu a), (.N, .edu b)]) := by
    intro a b ha hb s h
    rcases two_parts h with h | h | h <;> cases h
    · exact ha
    · exact hb
  obtain ⟨s, _, hs⟩ := c70_write (T := T.mapEdus codraQuotes) (by rw [hT]; exact wf _ _ (by decide) (by decide)) (by rw [hT]; exact marks _ _ (by decide) (by decide))
    (by rw [hT]; intro name kids h; rcases two_parts h with h | h | h <;> cases h; exact ⟨by simp, by decide, by decide⟩) (by rw [hT]; simp)
  refine ⟨s, c70_codra_partial hs (wf _ _ (by decide) (by decide)) (marks _ _ (by decide) (by decide)) ?_ ?_ (by simp)⟩
  · rw [hT]
    constructor
    · intro e h
      rcases two_parts h with h | h | h <;> cases h <;> unfold NoEscape <;> decide
    · intro name kids h
      rcases two_parts h with h | h | h <;> cases h
      unfold NoEscape
      decide
  · intro e h
    rcases two_parts h with h | h | h <;> cases h <;> decide

/-- a file of the CODRA parser -/
example : (readCodra "(Root (span 1 2) (Nucleus (leaf 1) (rel2par j) (text _!a \\\\\\\"b\\\\\\\"_!)) (Nucleus (leaf 2) (rel2par j) (text _!c_!)))".toList).toOption.map PTree.flatForm =
    some (Rst.rel ['j'] [(.N, .edu ['a', ' ', '"', 'b', '"']), (.N, .edu ['c'])]).tree.flatForm := by decide +kernel

end Dg
