import Verif.Lemmas.Rst
import Verif.Lemmas.Dict

/-!
**C35** Parser output converters preserve EDUs, relations and nuclearity: HILDA, StageDP and DPLP parse trees are converted to trees with the same EDU sequence, one
relation node per input relation carrying the relation name, and children labelled with the nuclearity given in the input label.

`HildaTree T p`, `StagedpTree T p`, `DplpTree toks T p` (Spec/RstParsers.lean) say that the parser prints `p` for the rhetorical structure `T`; `T.tree` (Spec/Rst.lean)
is the project's tree of `T` and `T.docTree` the same, except that a document of one EDU is a single nucleus.
-/

namespace Dg

/-- **C35** (HILDA) every tree HILDA prints for a structure is converted into the tree of that structure -/
theorem c35_hilda {T : Rst} {p : PTree} (h : HildaTree T p) : hildaTransform p = .ok T.tree := by
  induction h with
  | edu s => rfl
  | @rel name nl x y l r pl pr hn hnl _ _ ihl ihr =>
    rw [hildaTransform, hildaRel_eq.2 ⟨hn, nl, hnl, rfl⟩]
    simp only [ihl, ihr]
    rfl

/-- **C35** (HILDA) and nothing else is accepted: whatever is converted is the printed tree of some structure, and the result is the tree of that structure -/
theorem c35_hilda_only {p q : PTree} (hs : OnlyStrings p) (h : hildaTransform p = .ok q) : ∃ T, HildaTree T p ∧ q = T.tree := by
  induction p using PTree.ind generalizing q with
  | h1 s => rw [hildaTransform] at h; cases h; exact ⟨.edu s, .edu s, rfl⟩
  | h0 => cases hs
  | h2 label kids ih =>
    cases hs with
    | node _ hk =>
      match kids, ih, hk with
      | [l, r], ih, hk =>
        rw [hildaTransform] at h
        cases hrel : hildaRel label with
        | none => rw [hrel] at h; cases h
        | some v =>
          obtain ⟨name, x, y⟩ := v
          rw [hrel] at h
          obtain ⟨hn, nl, hnl, rfl⟩ := hildaRel_eq.1 hrel
          simp only at h
          cases hl : hildaTransform l with
          | error e => rw [hl] at h; cases h
          | ok l' =>
            cases hr : hildaTransform r with
            | error e => rw [hl, hr] at h; cases h
            | ok r' =>
              rw [hl, hr] at h
              cases h
              obtain ⟨Tl, h1, rfl⟩ := ih l (by simp) (hk l (by simp)) hl
              obtain ⟨Tr, h2, rfl⟩ := ih r (by simp) (hk r (by simp)) hr
              exact ⟨_, .rel hn hnl h1 h2, rfl⟩
      | [], _, _ => simp [hildaTransform] at h
      | [_], _, _ => simp [hildaTransform] at h
      | _ :: _ :: _ :: _, _, _ => simp [hildaTransform] at h

/-- the EDUs of a printed HILDA tree are its leaves -/
theorem HildaTree.leaves {T : Rst} {p : PTree} (h : HildaTree T p) : p.leaves = T.edus := by
  induction h with
  | edu s => rfl
  | rel _ _ _ _ ihl ihr => simp [PTree.leaves, PTree.leavesAll, Rst.edus, Rst.edusAll, ihl, ihr]

/-- **C35** (HILDA) the converted tree has the same EDUs in the same order as the printed tree -/
theorem c35_hilda_edus {p q : PTree} (hs : OnlyStrings p) (h : hildaTransform p = .ok q) : q.leaves = p.leaves := by
  obtain ⟨T, hT, rfl⟩ := c35_hilda_only hs h
  rw [hT.leaves, Rst.leaves_tree]

/-- **C35** (HILDA) all other trees are rejected by an AssertionError -/
theorem c35_hilda_rejects {p : PTree} {e : PyErr} (h : hildaTransform p = .error e) : e = .assertion := by
  induction p using PTree.ind with
  | h1 s => rw [hildaTransform] at h; cases h
  | h0 => rw [hildaTransform] at h; cases h
  | h2 label kids ih =>
    match kids, ih with
    | [l, r], ih =>
      rw [hildaTransform] at h
      cases hrel : hildaRel label with
      | none => rw [hrel] at h; cases h; rfl
      | some v =>
        obtain ⟨name, x, y⟩ := v
        rw [hrel] at h
        simp only at h
        cases hl : hildaTransform l with
        | error e => rw [hl] at h; cases h; exact ih l (by simp) hl
        | ok l' =>
          cases hr : hildaTransform r with
          | error e => rw [hl, hr] at h; cases h; exact ih r (by simp) hr
          | ok r' => rw [hl, hr] at h; cases h
    | [], _ => rw [hildaTransform] at h; cases h; rfl; simp
    | [_], _ => rw [hildaTransform] at h; cases h; rfl; simp
    | _ :: _ :: _ :: _, _ => rw [hildaTransform] at h; cases h; rfl; simp

/-- a structure with a relation below a relation -/
def c35Example : Rst := .rel "Contrast".toList [(.S, .edu "Although they like it,".toList),
  (.N, .rel "same-unit".toList [(.N, .edu "they".toList), (.N, .edu "left.".toList)])]

example : HildaTree c35Example (.node "Contrast[S][N]".toList [.leaf "Although they like it,".toList,
    .node "same-unit[N][N]".toList [.leaf "they".toList, .leaf "left.".toList]]) ∧
    hildaTransform (.node "Contrast[S][N]".toList [.leaf "Although they like it,".toList,
    .node "same-unit[N][N]".toList [.leaf "they".toList, .leaf "left.".toList]]) =
    .ok (.node "Contrast".toList [.node ['S'] [.leaf "Although they like it,".toList],
      .node ['N'] [.node "same-unit".toList [.node ['N'] [.leaf "they".toList], .node ['N'] [.leaf "left.".toList]]]]) :=
  ⟨.rel (nl := []) (by decide) (.inl rfl) (.edu _) (.rel (nl := []) (by decide) (.inl rfl) (.edu _) (.edu _)), rfl⟩

/-! ### StageDP -/

/-- removing the enclosing marks and the markers -/
theorem cleanup_enclosed (mid : List Char) :
    cleanupEduText (['_', '!'] ++ mid ++ ['_', '!']) = joinChars [' '] ((splitChars '_' mid).filter (fun t => ¬ StagedpMarker t)) := by
  unfold cleanupEduText
  have h1 : ((['_', '!'] ++ mid ++ ['_', '!']).take ((['_', '!'] ++ mid ++ ['_', '!']).length - 2)) = ['_', '!'] ++ mid := by
    rw [List.append_assoc, ← List.append_assoc, List.take_append_of_le_length (by simp)]
    exact List.take_of_length_le (by simp)
  rw [h1, List.drop_left' (by rfl)]
  congr 1
  apply List.filter_congr
  intro t _
  by_cases h : StagedpMarker t
  · have h2 := h
    simp only [StagedpMarker] at h2
    simp only [h, not_true_eq_false, decide_false, decide_eq_false_iff_not]
    rcases h2 with rfl | rfl <;> simp
  · have h2 := h
    simp only [StagedpMarker, not_or] at h2
    simp only [h, not_false_eq_true, decide_true, decide_eq_true_eq]
    exact h2

/-- the text of a printed EDU -/
theorem cleanup_toks {toks : List (List Char)} (h : ∀ t ∈ toks, '_' ∉ t) :
    cleanupEduText (['_', '!'] ++ joinChars ['_'] toks ++ ['_', '!']) = joinChars [' '] (toks.filter (fun t => ¬ StagedpMarker t)) := by
  rw [cleanup_enclosed]
  by_cases hne : toks = []
  · subst hne; decide
  · rw [splitChars_join '_' toks hne h]

theorem stagedp_below {T : Rst} {p : PTree} (h : StagedpTree T p) : stagedpTransform false (cleanupLeaves p) = .ok T.tree := by
  induction h with
  | edu toks ht =>
    rw [cleanupLeaves, cleanupLeavesAll, cleanupLeavesAll, cleanupLeaves, stagedpTransform, cleanup_toks ht]
    rfl
  | @rel name nl x y l r pl pr hn hnl _ _ ihl ihr =>
    rw [cleanupLeaves, cleanupLeavesAll, cleanupLeavesAll, cleanupLeavesAll, stagedpTransform, stagedpRel_eq.2 ⟨hn, nl, hnl, rfl⟩]
    simp only [ihl, ihr]
    rfl

/-- **C35** (StageDP) every tree StageDP prints for a structure is converted into the tree of that structure -/
theorem c35_stagedp {T : Rst} {p : PTree} (h : StagedpTree T p) : readStagedp p = .ok T.docTree := by
  cases h with
  | edu toks ht =>
    rw [readStagedp, cleanupLeaves, cleanupLeavesAll, cleanupLeavesAll, cleanupLeaves, stagedpTransform, cleanup_toks ht]
    rfl
  | @rel name nl x y l r pl pr hn hnl hl hr =>
    rw [readStagedp, cleanupLeaves, cleanupLeavesAll, cleanupLeavesAll, cleanupLeavesAll, stagedpTransform, stagedpRel_eq.2 ⟨hn, nl, hnl, rfl⟩]
    simp only [stagedp_below hl, stagedp_below hr]
    rfl

/-- **C35** (StageDP) the converted tree has the EDUs of the structure in order -/
theorem c35_stagedp_edus {T : Rst} {p : PTree} (h : StagedpTree T p) : ∃ q, readStagedp p = .ok q ∧ q.leaves = T.edus :=
  ⟨_, c35_stagedp h, Rst.leaves_docTree T⟩

/-- input of the StageDP converter: EDU texts are enclosed by `_!` and are the only children of their nodes, other nodes do not have a single child -/
inductive StagedpInput : PTree → Prop
  | edu (label mid : List Char) : StagedpInput (.node label [.leaf (['_', '!'] ++ mid ++ ['_', '!'])])
  | node (label : List Char) {kids : List PTree} : kids.length ≠ 1 → (∀ k ∈ kids, StagedpInput k) → StagedpInput (.node label kids)

/-- an enclosed text is that of a printed EDU -/
theorem stagedpTree_edu (mid : List Char) :
    StagedpTree (.edu (cleanupEduText (['_', '!'] ++ mid ++ ['_', '!']))) (.node ['E', 'D', 'U'] [.leaf (['_', '!'] ++ mid ++ ['_', '!'])]) := by
  have h := StagedpTree.edu (splitChars '_' mid) (fun t ht => splitChars_mem '_' mid t ht)
  rw [joinChars_splitChars] at h
  rw [cleanup_enclosed]
  exact h

theorem stagedp_only_below {p q : PTree} (hs : StagedpInput p) (h : stagedpTransform false (cleanupLeaves p) = .ok q) : ∃ T, StagedpTree T p ∧ q = T.tree := by
  induction hs generalizing q with
  | edu label mid =>
    rw [cleanupLeaves, cleanupLeavesAll, cleanupLeavesAll, cleanupLeaves, stagedpTransform] at h
    split at h
    · cases h
    · rename_i hl
      have hl : label = ['E', 'D', 'U'] := by simpa using hl
      subst hl
      simp at h
      subst h
      exact ⟨_, stagedpTree_edu mid, rfl⟩
  | @node label kids hlen hk ih =>
    match kids, hlen, ih with
    | [], _, _ => simp [cleanupLeaves, cleanupLeavesAll, stagedpTransform] at h
    | [_], hlen, _ => simp at hlen
    | _ :: _ :: _ :: _, _, _ => simp [cleanupLeaves, cleanupLeavesAll, stagedpTransform] at h
    | [l, r], _, ih =>
      rw [cleanupLeaves, cleanupLeavesAll, cleanupLeavesAll, cleanupLeavesAll, stagedpTransform] at h
      cases hrel : stagedpRel label with
      | none => rw [hrel] at h; cases h
      | some v =>
        obtain ⟨x, y, name⟩ := v
        rw [hrel] at h
        obtain ⟨hn, nl, hnl, rfl⟩ := stagedpRel_eq.1 hrel
        simp only at h
        cases hl : stagedpTransform false (cleanupLeaves l) with
        | error e => rw [hl] at h; cases h
        | ok l' =>
          cases hr : stagedpTransform false (cleanupLeaves r) with
          | error e => rw [hl, hr] at h; cases h
          | ok r' =>
            rw [hl, hr] at h
            cases h
            obtain ⟨Tl, h1, rfl⟩ := ih l (by simp) hl
            obtain ⟨Tr, h2, rfl⟩ := ih r (by simp) hr
            exact ⟨_, .rel hn hnl h1 h2, rfl⟩

/-- **C35** (StageDP) whatever is converted is the printed tree of some structure, and the result is the tree of that structure -/
theorem c35_stagedp_only {p q : PTree} (hs : StagedpInput p) (h : readStagedp p = .ok q) : ∃ T, StagedpTree T p ∧ q = T.docTree := by
  rw [readStagedp] at h
  cases hs with
  | edu label mid =>
    rw [cleanupLeaves, cleanupLeavesAll, cleanupLeavesAll, cleanupLeaves, stagedpTransform] at h
    split at h
    · cases h
    · rename_i hl
      have hl : label = ['E', 'D', 'U'] := by simpa using hl
      subst hl
      simp at h
      subst h
      exact ⟨_, stagedpTree_edu mid, rfl⟩
  | @node label kids hlen hk =>
    match kids, hlen, hk with
    | [], _, _ => simp [cleanupLeaves, cleanupLeavesAll, stagedpTransform] at h
    | [_], hlen, _ => simp at hlen
    | _ :: _ :: _ :: _, _, _ => simp [cleanupLeaves, cleanupLeavesAll, stagedpTransform] at h
    | [l, r], hlen, hk =>
      have h' : stagedpTransform false (cleanupLeaves (.node label [l, r])) = .ok q := by
        rw [cleanupLeaves, cleanupLeavesAll, cleanupLeavesAll, cleanupLeavesAll, stagedpTransform] at h ⊢
        exact h
      obtain ⟨T, hT, rfl⟩ := stagedp_only_below (.node label hlen hk) h'
      refine ⟨T, hT, ?_⟩
      cases hT; rfl

example : readStagedp (.node "NS-Explanation".toList [.node ['E', 'D', 'U'] [.leaf "_!They_left_<S>_!".toList], .node ['E', 'D', 'U'] [.leaf "_!because_!".toList]]) =
    .ok (.node "Explanation".toList [.node ['N'] [.leaf "They left".toList], .node ['S'] [.leaf "because".toList]]) := rfl

example : StagedpTree (.rel "Explanation".toList [(.N, .edu "They left".toList), (.S, .edu "because".toList)])
    (.node "NS-Explanation".toList [.node ['E', 'D', 'U'] [.leaf "_!They_left_<S>_!".toList], .node ['E', 'D', 'U'] [.leaf "_!because_!".toList]]) :=
  .rel (nl := []) (by decide) (.inl rfl) (.edu ["They".toList, "left".toList, ['<', 'S', '>']] (by decide)) (.edu ["because".toList] (by decide))

/-! ### DPLP -/

/-- the tokens of an EDU -/
def tokensOf (toks : List (List Char × Nat)) (id : Int) : List (List Char) := (toks.filter (fun t => (t.2 : Int) = id)).map Prod.fst

theorem extractEdusLoop_spec {toks : List (List Char × Nat)} {text : List Char} (h : MergeFile toks text) (d : Dict Int (List (List Char))) :
    ∃ d', extractEdusLoop d (splitLines text) = .ok d' ∧ ∀ id, (d'.find id).getD [] = (d.find id).getD [] ++ tokensOf toks id := by
  induction h generalizing d with
  | nil => exact ⟨d, rfl, fun id => by simp [tokensOf]⟩
  | @blank toks line text hl _ ih =>
    cases hl with
    | blank hb =>
      obtain ⟨d', h1, h2⟩ := ih d
      refine ⟨d', ?_, h2⟩
      rw [splitLines, splitLinesAux_line _ _ _ (fun c hc => by rcases hb c hc with rfl | rfl <;> decide)]
      rw [extractEdusLoop, if_pos]
      · exact h1
      · simp only [List.reverse_nil, List.nil_append]
        exact stripChars_blank (fun c hc => by rcases hb c hc with rfl | rfl <;> decide)
  | @token toks t line text hl _ ih =>
    cases hl with
    | @token cols tok id hcol h2 h9 =>
      have hne : cols ≠ [] := by rintro rfl; simp at h2
      have hid : decimal id ∈ cols := List.mem_of_getElem? h9
      have hmem : ∀ c, c ∈ joinChars ['\t'] cols → c = '\t' ∨ ∃ x ∈ cols, c ∈ x := by
        intro c
        clear h2 h9 hid hne hcol
        induction cols with
        | nil => intro h; cases h
        | cons x xs ih =>
          cases xs with
          | nil => intro h; exact .inr ⟨x, by simp, h⟩
          | cons y ys =>
            rw [joinChars]
            simp only [List.mem_append, List.mem_singleton]
            rintro ((h | h) | h)
            · exact .inr ⟨x, by simp, h⟩
            · exact .inl h
            · rcases ih h with h | ⟨z, hz, h⟩
              · exact .inl h
              · exact .inr ⟨z, by simp [List.mem_cons.1 hz], h⟩
      have hmem2 : ∀ c x, x ∈ cols → c ∈ x → c ∈ joinChars ['\t'] cols := by
        intro c
        clear h2 h9 hid hne hcol hmem
        induction cols with
        | nil => intro x h; cases h
        | cons x xs ih =>
          cases xs with
          | nil => intro z hz hc; simp at hz; subst hz; exact hc
          | cons y ys =>
            intro z hz hc
            rw [joinChars]
            rcases List.mem_cons.1 hz with rfl | hz
            · simp [hc]
            · simp [ih z hz hc]
      obtain ⟨d', h1, h3⟩ := ih (d.put id ((d.find id).getD [] ++ [tok]))
      refine ⟨d', ?_, ?_⟩
      · rw [splitLines, splitLinesAux_line]
        · simp only [List.reverse_nil, List.nil_append]
          rw [extractEdusLoop, if_neg, splitChars_join '\t' cols hne (fun x hx => (hcol x hx).1), h2, h9]
          · simp only [pyIntE_decimal]
            exact h1
          · obtain ⟨c, hc⟩ := List.exists_mem_of_ne_nil _ (decimal_ne_nil id)
            refine stripChars_ne_nil (hmem2 c _ hid hc) ?_
            have := decimal_digits id c hc
            unfold isDigitChar at this
            simp only [decide_eq_true_eq] at this
            unfold isSpaceByte
            simp only [decide_eq_false_iff_not, not_or]
            refine ⟨?_, ?_, ?_, ?_, ?_, ?_⟩ <;> (rintro rfl; revert this; decide)
        · intro c hc
          rcases hmem c hc with rfl | ⟨x, hx, hc⟩
          · decide
          · exact ⟨by rintro rfl; exact (hcol x hx).2.1 hc, by rintro rfl; exact (hcol x hx).2.2 hc⟩
      · intro i
        rw [h3, Dict.find_put]
        by_cases hi : (id : Int) = i
        · simp [hi, tokensOf]
        · simp [hi, tokensOf]

/-- **C35** (DPLP) extract_edus collects for each EDU number exactly its tokens in file order -/
theorem c35_dplp_edus {toks : List (List Char × Nat)} {merge : List Char} (h : MergeFile toks merge) :
    ∃ d, extractEdus merge = .ok d ∧ ∀ id : Nat, eduText d id = mergeText toks id := by
  obtain ⟨d, h1, h2⟩ := extractEdusLoop_spec h []
  refine ⟨d, h1, fun id => ?_⟩
  rw [eduText, h2, mergeText]
  simp only [Dict.find, tokensOf, Option.getD_none, List.nil_append, Int.natCast_inj]

/-- the structure with the EDU texts filled in, as `add_edus` leaves it -/
theorem addEdus_below {toks : List (List Char × Nat)} {d : Dict Int (List (List Char))} (hd : ∀ id : Nat, eduText d id = mergeText toks id) {T : Rst} {p : PTree}
    (h : DplpTree toks T p) : ∃ q, addEdusBelow d p = .ok q ∧ dplpTransform q = .ok T.tree ∧ (∃ l ks, p = .node l ks) := by
  induction h with
  | edu label id =>
    refine ⟨.leaf (mergeText toks id), ?_, rfl, _, _, rfl⟩
    rw [addEdusBelow, addEdusKids]
    simp only [pyIntE_decimal, PTree.leavesAll, ← hd]
    rfl
  | @rel name nl x y l r pl pr hn hnl hl hr ihl ihr =>
    obtain ⟨ql, h1, h2, _, _, rfl⟩ := ihl
    obtain ⟨qr, h3, h4, _, _, rfl⟩ := ihr
    refine ⟨.node ([x.char, y.char, '-'] ++ name ++ nl) [ql, qr], ?_, ?_, _, _, rfl⟩
    · rw [addEdusBelow, addEdusKids, addEdusKids, addEdusKids, h1, h3]
      · rfl
      all_goals (intro s hs; cases hs)
    · rw [dplpTransform, stagedpRel_eq.2 ⟨hn, nl, hnl, rfl⟩]
      simp only [h2, h4]
      rfl

/-- **C35** (DPLP) the merge file and the tree DPLP prints for a structure are converted into the tree of that structure -/
theorem c35_dplp {toks : List (List Char × Nat)} {merge : List Char} {T : Rst} {p : PTree} (hm : MergeFile toks merge) (h : DplpTree toks T p) :
    readDplp merge p = .ok T.docTree := by
  obtain ⟨d, h1, hd⟩ := c35_dplp_edus hm
  rw [readDplp, h1]
  show (addEdus d p >>= fun t => dplpTransform t) = _
  cases h with
  | edu label id =>
    rw [addEdus, addEdusRoot]
    simp only [pyIntE_decimal, PTree.leavesAll, PTree.leaves]
    show dplpTransform (.node ['N'] [.leaf (eduText d id)]) = _
    rw [hd]
    rfl
  | @rel name nl x y l r pl pr hn hnl hl hr =>
    obtain ⟨ql, h1, h2, _, _, rfl⟩ := addEdus_below hd hl
    obtain ⟨qr, h3, h4, _, _, rfl⟩ := addEdus_below hd hr
    rw [addEdus, addEdusRoot, addEdusRoot, addEdusRoot, h1, h3]
    · show dplpTransform (.node _ [ql, qr]) = _
      rw [dplpTransform, stagedpRel_eq.2 ⟨hn, nl, hnl, rfl⟩]
      simp only [h2, h4]
      rfl
    all_goals (intro s hs; cases hs)

/-- **C35** (DPLP) the converted tree has the EDUs of the structure in order -/
theorem c35_dplp_leaves {toks : List (List Char × Nat)} {merge : List Char} {T : Rst} {p : PTree} (hm : MergeFile toks merge) (h : DplpTree toks T p) :
    ∃ q, readDplp merge p = .ok q ∧ q.leaves = T.edus := ⟨_, c35_dplp hm h, Rst.leaves_docTree T⟩

/-- one line of a merge file -/
theorem c35_merge_example (tok : List Char) (id : Nat) (h : '\t' ∉ tok ∧ '\n' ∉ tok ∧ '\r' ∉ tok) (hid : '\t' ∉ decimal id ∧ '\n' ∉ decimal id ∧ '\r' ∉ decimal id) :
    MergeLine (some (tok, id)) (joinChars ['\t'] [['0'], ['1'], tok, [], [], [], [], [], [], decimal id]) := by
  refine .token ?_ rfl rfl
  simp [h, hid]

example : ∃ merge p, MergeFile [("They".toList, 1), ("left".toList, 1), ("because".toList, 2)] merge ∧
    DplpTree [("They".toList, 1), ("left".toList, 1), ("because".toList, 2)] (.rel "cause".toList [(.N, .edu "They left".toList), (.S, .edu "because".toList)]) p ∧
    readDplp merge p = .ok (.node "cause".toList [.node ['N'] [.leaf "They left".toList], .node ['S'] [.leaf "because".toList]]) := by
  have hm : MergeFile [("They".toList, 1), ("left".toList, 1), ("because".toList, 2)] _ :=
    .token (c35_merge_example _ _ (by decide) (by decide +kernel)) (.token (c35_merge_example _ _ (by decide) (by decide +kernel)) (.blank (.blank (line := []) (by simp))
      (.token (c35_merge_example _ _ (by decide) (by decide +kernel)) .nil)))
  have ht : DplpTree [("They".toList, 1), ("left".toList, 1), ("because".toList, 2)] (.rel "cause".toList [(.N, .edu "They left".toList), (.S, .edu "because".toList)]) _ :=
    .rel (nl := []) (by decide) (.inl rfl) (.edu ['E', 'D', 'U'] 1) (.edu ['E', 'D', 'U'] 2)
  exact ⟨_, _, hm, ht, c35_dplp hm ht⟩

end Dg
