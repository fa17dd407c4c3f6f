import Verif.Lemmas.BracketText
import Verif.Lemmas.DisSub
import Verif.Model.ParserText
import Verif.Spec.ParserText
import Verif.Props.C35
import Verif.Props.C36

/-!
**C72** Files of the parsers StageDP, Heilman/Sagae 2015 and DPLP: the text of a file is converted to the rhetorical structure that the parser printed, in any layout.
-/

namespace Dg

/-- **C72** (bracketed trees) exactly the texts with balanced, labelled brackets around one tree are read, in any layout, as this tree -/
theorem c72_brackets (s : List Char) (t : PTree) : treeFromString s = .ok t ↔ BracketFile t s := treeFromString_iff s t

/-- **C72** (bracketed trees) a text is the text of at most one tree -/
theorem c72_unique {s : List Char} {t t' : PTree} (h : BracketFile t s) (h' : BracketFile t' s) : t = t' := by
  have h1 := (treeFromString_iff s t).2 h
  rw [(treeFromString_iff s t').2 h'] at h1
  cases h1
  rfl

/-- **C72** (StageDP) every file for a structure, in any layout, is converted into the tree of that structure -/
theorem c72_stagedp {T : Rst} {s : List Char} (h : StagedpFile T s) : readStagedpText s = .ok T.docTree := by
  obtain ⟨p, h1, h2⟩ := h
  rw [readStagedpText, (treeFromString_iff s p).2 h2]
  exact c35_stagedp h1

/-- **C72** (StageDP) whatever is converted is the text of one tree; if EDUs are marked as usual, it is a file for a structure and the result is the tree of that structure -/
theorem c72_stagedp_only {s : List Char} {q : PTree} (h : readStagedpText s = .ok q) :
    ∃ p, BracketFile p s ∧ (StagedpInput p → ∃ T, StagedpFile T s ∧ q = T.docTree) := by
  rw [readStagedpText] at h
  cases hp : treeFromString s with
  | error e => rw [hp] at h; cases h
  | ok p =>
    rw [hp] at h
    have hb := (treeFromString_iff s p).1 hp
    refine ⟨p, hb, fun hi => ?_⟩
    obtain ⟨T, h1, h2⟩ := c35_stagedp_only hi h
    exact ⟨T, ⟨p, h1, hb⟩, h2⟩

/-- **C72** (StageDP) a text that is not one bracketed tree is rejected: ValueError -/
theorem c72_stagedp_rejects {s : List Char} (h : ¬ ∃ p, BracketFile p s) : readStagedpText s = .error .value := by
  have key : ∀ (ts : List BTok) (st : List (List Char × List PTree)) (top : List PTree) (e : PyErr), bracketParse st top ts = .error e → e = .value := by
    intro ts
    induction ts with
    | nil =>
      intro st top e h
      match st, top, h with
      | [], [], h => simp [bracketParse] at h; exact h.symm
      | [], [t], h => simp [bracketParse] at h
      | [], _ :: _ :: _, h => simp [bracketParse] at h; exact h.symm
      | _ :: _, [], h => simp [bracketParse] at h; exact h.symm
      | _ :: _, _ :: _, h => simp [bracketParse] at h; exact h.symm
    | cons t ts ih =>
      intro st top e h
      match st, t, h with
      | [], .openB l, h =>
        simp only [bracketParse] at h
        split at h
        · exact ih _ _ _ h
        · cases h; rfl
      | s :: st, .openB l, h => simp only [bracketParse] at h; exact ih _ _ _ h
      | [], .closeB, h => simp only [bracketParse] at h; cases h; rfl
      | [s], .closeB, h => simp only [bracketParse] at h; exact ih _ _ _ h
      | s :: s' :: st, .closeB, h => simp only [bracketParse] at h; exact ih _ _ _ h
      | [], .word w, h => simp only [bracketParse] at h; cases h; rfl
      | s :: st, .word w, h => simp only [bracketParse] at h; exact ih _ _ _ h
  rw [readStagedpText]
  cases hp : treeFromString s with
  | ok p => exact absurd ⟨p, (treeFromString_iff s p).1 hp⟩ h
  | error e =>
    unfold treeFromString at hp
    rw [key _ _ _ _ hp]
    rfl

/-- a bracketed text for an EDU -/
theorem bracketEdu (w pre sep sep' : List Char) (hw : PlainText w) (hne : w ≠ []) (hp : Blank pre) (hs : Blank sep) (hn : sep ≠ []) (hs' : Blank sep') :
    BracketText (.node ['E', 'D', 'U'] [.leaf w]) ('(' :: (pre ++ (([] ++ ['E', 'D', 'U']) ++ ((sep ++ (w ++ sep')) ++ [')'])))) :=
  .node (u := []) hp (by unfold PlainText; decide) (by simp) (by decide) (by simp) (.leaf hs (fun _ => hn) hne hw (.nil hs'))

/-- a file with two EDUs in two lines -/
def c72File : List Char := "(NS-Explanation (EDU _!They_left_<S>_!)\n  (EDU _!because_!))\n".toList

/-- the hypotheses are met -/
example : StagedpFile (.rel "Explanation".toList [(.N, .edu "They left".toList), (.S, .edu "because".toList)]) c72File ∧
    readStagedpText c72File = .ok (.node "Explanation".toList [.node ['N'] [.leaf "They left".toList], .node ['S'] [.leaf "because".toList]]) := by
  have h : StagedpFile (.rel "Explanation".toList [(.N, .edu "They left".toList), (.S, .edu "because".toList)]) c72File := by
    refine ⟨.node "NS-Explanation".toList [.node ['E', 'D', 'U'] [.leaf "_!They_left_<S>_!".toList], .node ['E', 'D', 'U'] [.leaf "_!because_!".toList]],
      .rel (nl := []) (by decide) (.inl rfl) (.edu ["They".toList, "left".toList, ['<', 'S', '>']] (by decide)) (.edu ["because".toList] (by decide)), ?_⟩
    refine ⟨[], _, ['\n'], ?_, by unfold Blank; decide, by unfold Blank; decide, .node (u := []) (pre := []) (by unfold Blank; decide) (by unfold PlainText; decide) (by simp) (by decide) (by simp)
      (.node (sep := [' ']) (by unfold Blank; decide) (bracketEdu "_!They_left_<S>_!".toList [] [' '] [] (by unfold PlainText; decide) (by decide) (by unfold Blank; decide) (by unfold Blank; decide) (by decide) (by unfold Blank; decide))
        (.node (sep := ['\n', ' ', ' ']) (by unfold Blank; decide) (bracketEdu "_!because_!".toList [] [' '] [] (by unfold PlainText; decide) (by decide) (by unfold Blank; decide) (by unfold Blank; decide) (by decide) (by unfold Blank; decide))
          (.nil (s := []) (by unfold Blank; decide))))⟩
    decide
  exact ⟨h, c72_stagedp h⟩

/-- **C72 is violated** (StageDP): an underscore in the text is read as a blank -/
theorem c72_fails_underscore : readStagedpText "(EDU _!a_snake_case_name_!)".toList = .ok (.node ['N'] [.leaf "a snake case name".toList]) := by
  have : treeFromString "(EDU _!a_snake_case_name_!)".toList = .ok (.node ['E', 'D', 'U'] [.leaf "_!a_snake_case_name_!".toList]) := by
    rw [treeFromString_iff]
    exact ⟨[], _, [], by decide, by unfold Blank; decide, by unfold Blank; decide,
      bracketEdu "_!a_snake_case_name_!".toList [] [' '] [] (by unfold PlainText; decide) (by decide) (by unfold Blank; decide) (by unfold Blank; decide) (by decide) (by unfold Blank; decide)⟩
  rw [readStagedpText, this]
  rfl

/-! ### Heilman and Sagae -/

/-- **C72** (Heilman and Sagae), partial as C36: the first parse of the file, in any layout, is converted into the tree of its structure.  Missing: nuclei with several satellites. -/
theorem c72_hs2015_partial {edus : List (List (List Char))} {T : Rst} {kids : List PTree} {s : List Char} {more : List (Option (List Char))}
    (h : HsBody capitalize edus T kids) (hm : ¬ HasMultisat T) (hs : BracketFile (.node ['R', 'O', 'O', 'T'] kids) s) :
    readHs2015Json { eduTokens := some edus, trees := some (some s :: more) } = .ok T.tree := by
  have := c36_convert_partial h hm
  simp only [readHs2015Json, needKey, bind, Except.bind, (treeFromString_iff s _).2 hs]
  exact this

/-- **C72** (Heilman and Sagae) a file without one of the parts raises an exception: KeyError, or IndexError if there is no parse -/
theorem c72_hs2015_missing (j : HsJson) :
    (j.eduTokens = none → readHs2015Json j = .error .key) ∧ (j.trees = none → readHs2015Json j = .error .key) ∧
    (j.eduTokens ≠ none → j.trees = some [] → readHs2015Json j = .error .index) ∧
    (∀ more, j.eduTokens ≠ none → j.trees = some (none :: more) → readHs2015Json j = .error .key) := by
  obtain ⟨e, t⟩ := j
  refine ⟨?_, ?_, ?_, ?_⟩
  · rintro h; dsimp only at h; subst h; rfl
  · rintro h; dsimp only at h; subst h
    cases e <;> rfl
  · rintro h1 h2; dsimp only at h1 h2; subst h2
    cases e
    · exact absurd rfl h1
    · rfl
  · rintro more h1 h2; dsimp only at h1 h2; subst h2
    cases e
    · exact absurd rfl h1
    · rfl

/-- the hypotheses are met -/
example : readHs2015Json { eduTokens := some c36Edus, trees := some [some "(ROOT (satellite:contrast (text 0)) (nucleus:span (text 1)))".toList] } =
    .ok (Rst.tree (.rel "Contrast".toList [(.S, .edu "Although bad".toList), (.N, .edu "they left".toList)])) := by
  have hb : HsBody capitalize c36Edus (.rel "Contrast".toList [(.S, .edu "Although bad".toList), (.N, .edu "they left".toList)])
      [.node "satellite:contrast".toList [.node ['t', 'e', 'x', 't'] [.leaf (decimal 0)]], .node "nucleus:span".toList [.node ['t', 'e', 'x', 't'] [.leaf (decimal 1)]]] :=
    .rel (parts := [(.S, "contrast".toList, _), (.N, "span".toList, _)]) (.inr (.inl ⟨_, _, _, _, rfl, .inr rfl⟩))
      (.cons (n := .S) (by decide) c36_edu0 (.cons (n := .N) (by decide) c36_edu1 .nil))
  have ht : ∀ d : List Char, d ≠ [] → PlainText d → BracketText (.node ['t', 'e', 'x', 't'] [.leaf d]) ('(' :: ([] ++ (([] ++ ['t', 'e', 'x', 't']) ++ (([' '] ++ (d ++ [])) ++ [')'])))) :=
    fun d h1 h2 => .node (u := []) (by unfold Blank; decide) (by unfold PlainText; decide) (by simp) (by decide) (by simp) (.leaf (by unfold Blank; decide) (fun _ => by decide) h1 h2 (.nil (by unfold Blank; decide)))
  refine c72_hs2015_partial hb (fun h => absurd ((Rst.multisat_iff _).2 h) (by decide)) ?_
  refine ⟨[], _, [], ?_, by unfold Blank; decide, by unfold Blank; decide, .node (u := []) (pre := []) (by unfold Blank; decide) (by unfold PlainText; decide) (by simp) (by decide) (by simp)
    (.node (sep := [' ']) (by unfold Blank; decide) (.node (u := []) (pre := []) (by unfold Blank; decide) (by unfold PlainText; decide) (by simp) (by decide) (by simp)
        (.node (sep := [' ']) (by unfold Blank; decide) (ht (decimal 0) (by decide +kernel) (by unfold PlainText; decide +kernel)) (.nil (s := []) (by unfold Blank; decide))))
      (.node (sep := [' ']) (by unfold Blank; decide) (.node (u := []) (pre := []) (by unfold Blank; decide) (by unfold PlainText; decide) (by simp) (by decide) (by simp)
        (.node (sep := [' ']) (by unfold Blank; decide) (ht (decimal 1) (by decide +kernel) (by unfold PlainText; decide +kernel)) (.nil (s := []) (by unfold Blank; decide))))
      (.nil (s := []) (by unfold Blank; decide))))⟩
  decide +kernel

/-! ### DPLP -/

/-- the first occurrence is found -/
theorem splitOnce_first {x : Char} {p : List Char} (hx : x ∉ p) (a r : List Char) (h : ¬ x :: p <:+: a) : splitOnce (x :: p) (a ++ (x :: p ++ r)) = some (a, r) := by
  induction a with
  | nil =>
    rw [List.nil_append, List.cons_append, splitOnce, if_pos]
    · have : (x :: (p ++ r)).drop (x :: p).length = r := by
        rw [← List.cons_append]; exact List.drop_left
      rw [this]
    · rw [List.isPrefixOf_iff_prefix, ← List.cons_append]; exact List.prefix_append _ _
  | cons c a ih =>
    rw [List.cons_append, splitOnce, if_neg, ih (fun k => h (List.infix_cons k))]
    · rfl
    · rw [List.isPrefixOf_iff_prefix]
      intro k
      apply h
      rw [List.cons_prefix_cons] at k
      obtain ⟨rfl, k⟩ := k
      have := prefix_split hx (show p <+: a ++ x :: (p ++ r) from k)
      exact List.IsPrefix.isInfix (List.cons_prefix_cons.2 ⟨rfl, this⟩)

/-- **C72** (DPLP) a file is split in front of the parse tree, if the word `ParentedTree` does not occur before it -/
theorem c72_dplp_split (merge tree : List Char) (h : ¬ ['P', 'a', 'r', 'e', 'n', 't', 'e', 'd', 'T', 'r', 'e', 'e'] <:+: merge) :
    splitInput (merge ++ (['P', 'a', 'r', 'e', 'n', 't', 'e', 'd', 'T', 'r', 'e', 'e'] ++ tree)) =
      .ok (merge, ['P', 'a', 'r', 'e', 'n', 't', 'e', 'd', 'T', 'r', 'e', 'e'] ++ tree) := by
  unfold splitInput parentedTree
  rw [splitOnce_first (by decide) merge tree h]

theorem subLit_class (rest : List Char) : subLit parentedTree ['T', 'r', 'e', 'e'] 0 (parentedTree ++ rest) = ['T', 'r', 'e', 'e'] ++ subLit parentedTree ['T', 'r', 'e', 'e'] 0 rest := by
  simp only [parentedTree, List.cons_append, List.nil_append, subLit]
  rw [if_pos (by simp [List.isPrefixOf])]
  rfl

theorem subLit_sep {e : Char} (he : e ∉ parentedTree) (rest : List Char) : subLit parentedTree ['T', 'r', 'e', 'e'] 0 (e :: rest) = e :: subLit parentedTree ['T', 'r', 'e', 'e'] 0 rest :=
  subLit_pass (s := []) he (by decide) (by decide) rest

theorem subLit_literal {s : List Char} (h : PlainLiteral s) (rest : List Char) :
    subLit parentedTree ['T', 'r', 'e', 'e'] 0 ('\'' :: (s ++ ('\'' :: rest))) = '\'' :: (s ++ ('\'' :: subLit parentedTree ['T', 'r', 'e', 'e'] 0 rest)) := by
  rw [subLit_sep (by decide)]
  exact congrArg _ (subLit_pass (e := '\'') (by decide) (by decide) h.2.2.2 rest)

mutual
/-- the name of the class is replaced, nothing else -/
theorem subLit_expr : ∀ {t : PTree}, t.AllText PlainLiteral → ∀ rest, subLit parentedTree ['T', 'r', 'e', 'e'] 0 (t.pyExpr parentedTree ++ rest) =
    t.pyExpr ['T', 'r', 'e', 'e'] ++ subLit parentedTree ['T', 'r', 'e', 'e'] 0 rest
  | .leaf s, h, rest => by
    have h : PlainLiteral s := by cases h; assumption
    simp only [PTree.pyExpr, List.cons_append, List.append_assoc, List.nil_append]
    rw [subLit_literal h]
  | .none, h, rest => by cases h
  | .node l ks, h, rest => by
    have h1 : PlainLiteral l := by cases h; assumption
    have h2 : ∀ k ∈ ks, k.AllText PlainLiteral := by cases h; assumption
    have e1 := subLit_exprs ks h2 (']' :: ')' :: rest)
    simp only [PTree.pyExpr, List.cons_append, List.append_assoc, List.nil_append] at e1 ⊢
    rw [subLit_class, subLit_sep (by decide), subLit_literal h1, subLit_sep (by decide), subLit_sep (by decide), subLit_sep (by decide), e1, subLit_sep (by decide), subLit_sep (by decide)]
    rfl
theorem subLit_exprs : ∀ (ks : List PTree), (∀ k ∈ ks, k.AllText PlainLiteral) → ∀ rest, subLit parentedTree ['T', 'r', 'e', 'e'] 0 (PTree.pyExprs parentedTree ks ++ rest) =
    PTree.pyExprs ['T', 'r', 'e', 'e'] ks ++ subLit parentedTree ['T', 'r', 'e', 'e'] 0 rest
  | [], _, rest => rfl
  | [k], h, rest => by
    simp only [PTree.pyExprs]
    exact subLit_expr (h k (.head _)) rest
  | k :: k' :: ks, h, rest => by
    have e1 := subLit_exprs (k' :: ks) (fun x hx => h x (.tail _ hx)) rest
    simp only [PTree.pyExprs, List.append_assoc, List.cons_append]
    rw [subLit_expr (h k (.head _)), subLit_sep (by decide), subLit_sep (by decide), e1]
end

theorem subLit_blanks {s : List Char} (h : Blank s) : subLit parentedTree ['T', 'r', 'e', 'e'] 0 s = s := by
  induction s with
  | nil => rfl
  | cons c s ih =>
    have hc := h c (.head _)
    rw [subLit_sep, ih (fun x hx => h x (.tail _ hx))]
    exact (show ∀ c ∈ [' ', '\t', '\n', '\x0b', '\x0c', '\r'], c ∉ parentedTree by decide) c hc

/-- **C72** (DPLP) a file of the merged tokens and the expression for the parse tree is converted into the tree of the structure, if its tokens and names do not contain the word `ParentedTree` (and names no quotes, backslashes or
line breaks) -/
theorem c72_dplp_partial {eval : List Char → Except PyErr PTree} (he : EvaluatesTrees eval) {toks : List (List Char × Nat)} {merge post : List Char} {T : Rst} {p : PTree}
    (hm : MergeFile toks merge) (h : DplpTree toks T p) (hp : p.AllText PlainLiteral) (hpost : Blank post)
    (hmp : ¬ ['P', 'a', 'r', 'e', 'n', 't', 'e', 'd', 'T', 'r', 'e', 'e'] <:+: merge) :
    readDplpText eval (merge ++ (p.pyExpr ['P', 'a', 'r', 'e', 'n', 't', 'e', 'd', 'T', 'r', 'e', 'e'] ++ post)) = .ok T.docTree := by
  have hexp : ∃ r, p.pyExpr ['P', 'a', 'r', 'e', 'n', 't', 'e', 'd', 'T', 'r', 'e', 'e'] = ['P', 'a', 'r', 'e', 'n', 't', 'e', 'd', 'T', 'r', 'e', 'e'] ++ r := by
    cases h with
    | edu label id => exact ⟨_, rfl⟩
    | rel => exact ⟨_, rfl⟩
  obtain ⟨r, hr⟩ := hexp
  have hsplit := c72_dplp_split merge (r ++ post) hmp
  rw [← List.append_assoc ['P', 'a', 'r', 'e', 'n', 't', 'e', 'd', 'T', 'r', 'e', 'e'], ← hr] at hsplit
  have hsub := subLit_expr hp post
  rw [subLit_blanks hpost] at hsub
  have hev := he p post hp hpost
  unfold parentedTree at hsub
  simp only [readDplpText, hsplit, bind, Except.bind, parentedTree, hsub, hev]
  exact c35_dplp hm h

/-- **C72** (DPLP) a file without parse tree raises ValueError -/
theorem c72_dplp_no_tree (eval : List Char → Except PyErr PTree) (s : List Char) (h : ¬ ['P', 'a', 'r', 'e', 'n', 't', 'e', 'd', 'T', 'r', 'e', 'e'] <:+: s) : readDplpText eval s = .error .value := by
  have : splitOnce parentedTree s = none := by
    induction s with
    | nil => rfl
    | cons c s ih =>
      rw [splitOnce, if_neg, ih (fun k => h (List.infix_cons k))]
      · rfl
      · rw [List.isPrefixOf_iff_prefix]
        intro k
        exact h k.isInfix
  simp [readDplpText, splitInput, this, bind, Except.bind]

/-- **C72 is violated** (DPLP): if a word of the text contains `ParentedTree`, the file is split there, in the middle of the table of words -/
theorem c72_fails_word (before after tree : List Char) (h : ¬ ['P', 'a', 'r', 'e', 'n', 't', 'e', 'd', 'T', 'r', 'e', 'e'] <:+: before) :
    splitInput ((before ++ ['P', 'a', 'r', 'e', 'n', 't', 'e', 'd', 'T', 'r', 'e', 'e'] ++ after) ++ tree) =
      .ok (before, ['P', 'a', 'r', 'e', 'n', 't', 'e', 'd', 'T', 'r', 'e', 'e'] ++ (after ++ tree)) := by
  rw [← c72_dplp_split before (after ++ tree) h]
  simp

/-! ### an evaluator exists -/

theorem literal_inj {s s' r r' : List Char} (h : '\'' ∉ s) (h' : '\'' ∉ s') (e : s ++ '\'' :: r = s' ++ '\'' :: r') : s = s' ∧ r = r' := by
  induction s generalizing s' with
  | nil =>
    cases s' with
    | nil => exact ⟨rfl, by simpa using e⟩
    | cons c s' =>
      simp only [List.nil_append, List.cons_append, List.cons.injEq] at e
      exact absurd (e.1 ▸ List.mem_cons_self) h'
  | cons c s ih =>
    cases s' with
    | nil =>
      simp only [List.nil_append, List.cons_append, List.cons.injEq] at e
      exact absurd (e.1 ▸ List.mem_cons_self) h
    | cons c' s' =>
      simp only [List.cons_append, List.cons.injEq] at e
      obtain ⟨rfl, e⟩ := e
      have := ih (fun k => h (.tail _ k)) (fun k => h' (.tail _ k)) e
      exact ⟨by rw [this.1], this.2⟩

theorem PTree.AllText.leafText {P : List Char → Prop} {s : List Char} (h : PTree.AllText P (.leaf s)) : P s := by cases h; assumption
theorem PTree.AllText.label {P : List Char → Prop} {l : List Char} {ks : List PTree} (h : PTree.AllText P (.node l ks)) : P l := by cases h; assumption
theorem PTree.AllText.kids {P : List Char → Prop} {l : List Char} {ks : List PTree} (h : PTree.AllText P (.node l ks)) : ∀ k ∈ ks, k.AllText P := by cases h; assumption

/-- the children do not start with the bracket that ends them -/
theorem pyExprs_ne {k : PTree} {ks : List PTree} (hk : k.AllText PlainLiteral) (r r' : List Char) : PTree.pyExprs ['T', 'r', 'e', 'e'] (k :: ks) ++ r ≠ ']' :: r' := by
  cases ks <;> cases hk <;> simp [PTree.pyExprs, PTree.pyExpr]

mutual
theorem pyExpr_inj : ∀ (t t' : PTree), t.AllText PlainLiteral → t'.AllText PlainLiteral → ∀ r r', t.pyExpr ['T', 'r', 'e', 'e'] ++ r = t'.pyExpr ['T', 'r', 'e', 'e'] ++ r' → t = t' ∧ r = r'
  | .leaf s, .leaf s', h, h', r, r', e => by
    simp only [PTree.pyExpr, List.cons_append, List.append_assoc, List.nil_append, List.cons.injEq, true_and] at e
    have := literal_inj h.leafText.1 h'.leafText.1 e
    exact ⟨by rw [this.1], this.2⟩
  | .node l ks, .node l' ks', h, h', r, r', e => by
    simp only [PTree.pyExpr, List.cons_append, List.append_assoc, List.nil_append, List.cons.injEq, true_and] at e
    have := literal_inj h.label.1 h'.label.1 e
    have e1 := this.2
    simp only [List.cons.injEq, true_and] at e1
    have := pyExprs_inj ks ks' h.kids h'.kids _ _ e1
    have e2 := this.2
    simp only [List.cons.injEq, true_and] at e2
    exact ⟨by rw [‹l = l' ∧ _›.1, this.1], e2⟩
  | .leaf s, .node l' ks', h, h', r, r', e => by simp [PTree.pyExpr] at e
  | .node l ks, .leaf s', h, h', r, r', e => by simp [PTree.pyExpr] at e
  | .none, _, h, _, _, _, _ => nomatch h
  | .leaf _, .none, _, h, _, _, _ => nomatch h
  | .node _ _, .none, _, h, _, _, _ => nomatch h
theorem pyExprs_inj : ∀ (ks ks' : List PTree), (∀ k ∈ ks, k.AllText PlainLiteral) → (∀ k ∈ ks', k.AllText PlainLiteral) → ∀ r r',
    PTree.pyExprs ['T', 'r', 'e', 'e'] ks ++ ']' :: r = PTree.pyExprs ['T', 'r', 'e', 'e'] ks' ++ ']' :: r' → ks = ks' ∧ ']' :: r = ']' :: r'
  | [], [], _, _, r, r', e => ⟨rfl, e⟩
  | [], k' :: ks', _, h', r, r', e => absurd e.symm (pyExprs_ne (h' k' (.head _)) _ _)
  | k :: ks, [], h, _, r, r', e => absurd e (pyExprs_ne (h k (.head _)) _ _)
  | [k], [k'], h, h', r, r', e => by
    have := pyExpr_inj k k' (h k (.head _)) (h' k' (.head _)) _ _ e
    exact ⟨by rw [this.1], this.2⟩
  | [k], k' :: k1 :: ks', h, h', r, r', e => by
    simp only [PTree.pyExprs, List.append_assoc, List.cons_append] at e
    have := pyExpr_inj k k' (h k (.head _)) (h' k' (.head _)) _ _ e
    exact absurd this.2 (by simp)
  | k :: k1 :: ks, [k'], h, h', r, r', e => by
    simp only [PTree.pyExprs, List.append_assoc, List.cons_append] at e
    have := pyExpr_inj k k' (h k (.head _)) (h' k' (.head _)) _ _ e
    exact absurd this.2 (by simp)
  | k :: k1 :: ks, k' :: k1' :: ks', h, h', r, r', e => by
    simp only [PTree.pyExprs, List.append_assoc, List.cons_append] at e
    have := pyExpr_inj k k' (h k (.head _)) (h' k' (.head _)) _ _ e
    have e1 := this.2
    simp only [List.cons.injEq, true_and] at e1
    have e2 := pyExprs_inj (k1 :: ks) (k1' :: ks') (fun x hx => h x (.tail _ hx)) (fun x hx => h' x (.tail _ hx)) _ _ e1
    exact ⟨by rw [this.1, e2.1], e2.2⟩
end

/-- **C72** (DPLP) different trees have different expressions, so there is an evaluator as required by `c72_dplp_partial` -/
theorem c72_evaluator : ∃ eval, EvaluatesTrees eval := by
  classical
  refine ⟨fun s => if h : ∃ t, PTree.AllText PlainLiteral t ∧ ∃ post, Blank post ∧ s = t.pyExpr ['T', 'r', 'e', 'e'] ++ post then .ok h.choose else .error .syntax, ?_⟩
  intro t post ht hpost
  have h : ∃ t', PTree.AllText PlainLiteral t' ∧ ∃ post', Blank post' ∧ t.pyExpr ['T', 'r', 'e', 'e'] ++ post = t'.pyExpr ['T', 'r', 'e', 'e'] ++ post' := ⟨t, ht, post, hpost, rfl⟩
  dsimp only
  rw [dif_pos h]
  obtain ⟨h1, post', -, h3⟩ := h.choose_spec
  exact congrArg _ (pyExpr_inj _ _ ht h1 _ _ h3).1.symm

/-- the hypotheses of `c72_dplp_partial` are met: a file with one EDU -/
example : ∃ eval, EvaluatesTrees eval ∧ readDplpText eval ("0\t1\tYes\t\t\t\t\t\t\t1\nParentedTree('EDU', ['1'])\n".toList) = .ok (.node ['N'] [.leaf "Yes".toList]) := by
  obtain ⟨eval, he⟩ := c72_evaluator
  refine ⟨eval, he, ?_⟩
  have hm : MergeFile [("Yes".toList, 1)] (joinChars ['\t'] [['0'], ['1'], "Yes".toList, [], [], [], [], [], [], decimal 1] ++ '\n' :: []) :=
    .token (c35_merge_example "Yes".toList 1 (by decide) (by decide +kernel)) .nil
  have hlit : ∀ s : List Char, s = ['E', 'D', 'U'] ∨ s = decimal 1 → PlainLiteral s := by
    rintro s (rfl | rfl) <;> (unfold PlainLiteral; decide +kernel)
  have := c72_dplp_partial he (post := ['\n']) hm (.edu ['E', 'D', 'U'] 1) (.node (hlit _ (.inl rfl)) (by simp; exact .leaf (hlit _ (.inr rfl)))) (by unfold Blank; decide) (by decide +kernel)
  have e1 : "0\t1\tYes\t\t\t\t\t\t\t1\nParentedTree('EDU', ['1'])\n".toList = (joinChars ['\t'] [['0'], ['1'], "Yes".toList, [], [], [], [], [], [], decimal 1] ++ '\n' :: []) ++
      ((PTree.node ['E', 'D', 'U'] [.leaf (decimal 1)]).pyExpr ['P', 'a', 'r', 'e', 'n', 't', 'e', 'd', 'T', 'r', 'e', 'e'] ++ ['\n']) := by decide +kernel
  rw [e1, this]
  have e2 : mergeText [("Yes".toList, 1)] 1 = "Yes".toList := by decide +kernel
  rw [e2]
  rfl

end Dg
