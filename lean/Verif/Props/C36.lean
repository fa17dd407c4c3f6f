import Verif.Lemmas.Rst
import Verif.Model.Hs2015

/-!
**C36** Heilman/Sagae trees are converted without loss: HS2015 parses are converted into trees with the same EDU sequence; nucleus-satellite, multinuclear and
multi-satellite constellations are all handled.

`HsBody capitalize edus T kids` (Spec/RstParsers.lean) says that the parser prints a node with children `kids` for the structure `T`.  The claim fails for every tree with
a nucleus that has several satellites (`c36_fails_multisat`: NameError), and is proved for all others.
-/

namespace Dg

theorem Except.bind_ok' {ε α β : Type} (a : α) (f : α → Except ε β) : (Except.ok a >>= f) = f a := rfl

mutual
/-- some relation has several satellites (Boolean) -/
def Rst.multisat : Rst → Bool
  | .edu _ => false
  | .rel _ kids => decide (2 ≤ (kids.map Prod.fst).count .S) || Rst.multisatAny kids
/-- some part has a relation with several satellites -/
def Rst.multisatAny : List (Nuc × Rst) → Bool
  | [] => false
  | (_, t) :: r => Rst.multisat t || Rst.multisatAny r
end

theorem Rst.multisatAny_iff (ks : List (Nuc × Rst)) : multisatAny ks = true ↔ ∃ k ∈ ks, multisat k.2 = true := by
  induction ks with
  | nil => simp [multisatAny]
  | cons k ks ih => obtain ⟨n, t⟩ := k; simp [multisatAny, ih]

theorem Rst.multisat_iff (T : Rst) : multisat T = true ↔ HasMultisat T := by
  induction T using ind with
  | h1 s =>
    simp only [multisat, Bool.false_eq_true, false_iff]
    rintro ⟨name, kids, hp, _⟩
    cases hp
  | h2 a kids ih =>
    rw [multisat, Bool.or_eq_true, decide_eq_true_eq, multisatAny_iff]
    constructor
    · rintro (h | ⟨k, hk, h⟩)
      · exact ⟨a, kids, .refl _, h⟩
      · obtain ⟨n, ks, hp, h2⟩ := (ih k hk).1 h
        exact ⟨n, ks, .kid (n := k.1) hk hp, h2⟩
    · rintro ⟨n, ks, hp, h⟩
      cases hp with
      | refl => exact .inl h
      | kid hk hp => exact .inr ⟨_, hk, (ih _ hk).2 ⟨n, ks, hp, h⟩⟩

/-- the type a nuclearity label stands for -/
def Nuc.hsType : Nuc → HsType
  | .N => .nucleus
  | .S => .satellite

theorem hsTreeType_label (n : Nuc) (rel : List Char) (kids : List PTree) : hsTreeType (.node (hsLabel n rel) kids) = .ok n.hsType := by
  cases n with
  | N =>
    have h : (hsLabel .N rel).map lowerChar = ['n', 'u', 'c', 'l', 'e', 'u', 's'] ++ ':' :: rel.map lowerChar := by
      simp only [hsLabel, List.map_append]
      rfl
    rw [hsTreeType, h, splitChars_append_sep _ _ (by decide)]
    rfl
  | S =>
    have h : (hsLabel .S rel).map lowerChar = ['s', 'a', 't', 'e', 'l', 'l', 'i', 't', 'e'] ++ ':' :: rel.map lowerChar := by
      simp only [hsLabel, List.map_append]
      rfl
    rw [hsTreeType, h, splitChars_append_sep _ _ (by decide)]
    rfl

theorem hsRelname_label (n : Nuc) (rel : List Char) (kids : List PTree) (h : '\n' ∉ rel) :
    hsRelname (some (.node (hsLabel n rel) kids)) = .ok (capitalize rel) := by
  have hd : dotStarEnd rel = some rel := dotStarEnd_eq.2 ⟨h, [], .inl rfl, by simp⟩
  cases n with
  | N =>
    have h1 : ['n', 'u', 'c', 'l', 'e', 'u', 's', ':'].isPrefixOf (['n', 'u', 'c', 'l', 'e', 'u', 's', ':'] ++ rel) = true := by simp
    have h2 : (['n', 'u', 'c', 'l', 'e', 'u', 's', ':'] ++ rel).drop 8 = rel := rfl
    rw [hsRelname, hsLabel, h1, h2, if_pos rfl, hd]
  | S =>
    have h1 : ['n', 'u', 'c', 'l', 'e', 'u', 's', ':'].isPrefixOf (['s', 'a', 't', 'e', 'l', 'l', 'i', 't', 'e', ':'] ++ rel) = false := rfl
    have h2 : ['s', 'a', 't', 'e', 'l', 'l', 'i', 't', 'e', ':'].isPrefixOf (['s', 'a', 't', 'e', 'l', 'l', 'i', 't', 'e', ':'] ++ rel) = true := by simp
    have h3 : (['s', 'a', 't', 'e', 'l', 'l', 'i', 't', 'e', ':'] ++ rel).drop 10 = rel := rfl
    rw [hsRelname, hsLabel, h1, h2, h3, if_neg (by decide), if_pos rfl, hd]

/-- what `transform` makes of a structure -/
def hsResult (T : Rst) : Except PyErr PTree := if T.multisat then .error .name else .ok T.tree

/-- the label is that of a root, nucleus or satellite -/
def InnerLabel (label : List Char) : Prop := ∃ ty, hsTreeType (.node label []) = .ok ty ∧ (ty = .root ∨ ty = .nucleus ∨ ty = .satellite)

theorem innerLabel_hsLabel (n : Nuc) (rel : List Char) : InnerLabel (hsLabel n rel) := by
  refine ⟨_, hsTreeType_label n rel [], ?_⟩
  cases n <;> decide

/-- the body of a structure after the EDU texts were filled in -/
def BodyOk (edus : List (List (List Char))) (T : Rst) (kids : List PTree) : Prop :=
  ∃ kids', hsAddEdusAll edus kids = .ok kids' ∧ ∀ label, InnerLabel label → hsTransform (.node label kids') = hsResult T

/-- the parts of a relation after the EDU texts were filled in -/
def PartsOk (edus : List (List (List Char))) (parts : List (Nuc × List Char × Rst)) (kids : List PTree) : Prop :=
  ∃ kids', hsAddEdusAll edus kids = .ok kids' ∧ hsChildTypes kids' = .ok (parts.map (fun p => p.1.hsType)) ∧
    hsTransformAll kids' = parts.map (fun p => hsResult p.2.2) ∧
    kids'.map (fun k => hsRelname (some k)) = parts.map (fun p => .ok (capitalize p.2.1))

theorem wrapNuclei_results (parts : List (Nuc × List Char × Rst)) (hN : ∀ p ∈ parts, p.1 = .N) :
    wrapNuclei (parts.map (fun p => hsResult p.2.2)) =
      if Rst.multisatAny (parts.map (fun p => (p.1, p.2.2))) then .error .name else .ok (Rst.treeAll (parts.map (fun p => (p.1, p.2.2)))) := by
  induction parts with
  | nil => rfl
  | cons p ps ih =>
    have ih := ih (fun p hp => hN p (List.mem_cons_of_mem _ hp))
    have hp := hN p (by simp)
    obtain ⟨n, rel, t⟩ := p
    simp only at hp
    subst hp
    simp only [List.map_cons, wrapNuclei, ih, Rst.multisatAny, Rst.treeAll]
    by_cases ht : t.multisat = true
    · simp only [hsResult, ht, if_true]
      rfl
    · by_cases hps : Rst.multisatAny (ps.map (fun p => (p.1, p.2.2))) = true
      · simp only [hsResult, ht, hps]
        rfl
      · simp only [hsResult, ht, hps]
        rfl

theorem count_hsType_nucleus (ns : List Nuc) : (ns.map Nuc.hsType).count .nucleus = ns.count .N := by
  induction ns with
  | nil => rfl
  | cons n ns ih => cases n <;> simp [Nuc.hsType, ih]

theorem count_hsType_satellite (ns : List Nuc) : (ns.map Nuc.hsType).count .satellite = ns.count .S := by
  induction ns with
  | nil => rfl
  | cons n ns ih => cases n <;> simp [Nuc.hsType, ih]

theorem text_not_hsType (ns : List Nuc) : HsType.text ∉ ns.map Nuc.hsType := by
  simp only [List.mem_map, not_exists, not_and]
  intro n _
  cases n <;> decide

theorem hs_relation {edus : List (List (List Char))} {name : List Char} {parts : List (Nuc × List Char × Rst)} {kids : List PTree}
    (hrel : HsRelation capitalize name parts) (hp : PartsOk edus parts kids) : BodyOk edus (.rel name (parts.map (fun p => (p.1, p.2.2)))) kids := by
  obtain ⟨kids', h1, h2, h3, h4⟩ := hp
  refine ⟨kids', h1, ?_⟩
  rintro label ⟨ty, hty, hinner⟩
  rw [hsTransform, hty]
  show (if ty = .root ∨ ty = .nucleus ∨ ty = .satellite then _ else _) = _
  rw [if_pos hinner, h2]
  have hmm : parts.map (fun p => p.1.hsType) = (parts.map Prod.fst).map Nuc.hsType := by simp
  have htext : HsType.text ∉ parts.map (fun p => p.1.hsType) := by rw [hmm]; exact text_not_hsType _
  rcases hrel with ⟨hlen, hall⟩ | ⟨r1, t1, r2, t2, hname, rfl | rfl⟩ | ⟨hn, hs⟩
  · -- several nuclei
    have hnucs : parts.map Prod.fst = List.replicate parts.length .N := by
      rw [List.eq_replicate_iff]
      exact ⟨by simp, fun n hn => by obtain ⟨p, hp, rfl⟩ := List.mem_map.1 hn; exact (hall p hp).1⟩
    have htys : parts.map (fun p => p.1.hsType) = List.replicate parts.length .nucleus := by
      rw [hmm, hnucs, List.map_replicate]; rfl
    have hty : hsNuclearityType (parts.map (fun p => p.1.hsType)) = .ok .multinuc := by
      unfold hsNuclearityType
      rw [if_neg (fun h => htext h.1), htys, if_neg, if_pos, if_pos]
      · simp only [List.count_replicate_self]; omega
      · simp [List.mem_replicate]
      · intro h
        exact h (List.mem_replicate.2 ⟨by omega, rfl⟩)
    have hS : (parts.map Prod.fst).count .S = 0 := by rw [hnucs]; simp [List.count_replicate]
    have hk0 : hsRelname kids'[0]? = .ok name := by
      cases parts with
      | nil => simp at hlen
      | cons p ps =>
        cases kids' with
        | nil => simp at h4
        | cons k ks =>
          simp only [List.map_cons, List.cons.injEq] at h4
          simp only [List.getElem?_cons_zero, h4.1, (hall p (by simp)).2]
    simp only [Except.bind_ok']
    rw [hty]
    show (do
      let ts ← wrapNuclei (hsTransformAll kids')
      let relname ← hsRelname kids'[0]?
      return PTree.node relname ts) = _
    rw [h3, wrapNuclei_results parts (fun p hp => (hall p hp).1), hk0, hsResult, Rst.multisat]
    have hSm : decide (2 ≤ ((parts.map (fun p => (p.1, p.2.2))).map Prod.fst).count .S) = false := by
      have : (parts.map (fun p => (p.1, p.2.2))).map Prod.fst = parts.map Prod.fst := by simp
      rw [this, hS]; rfl
    rw [hSm, Bool.false_or]
    by_cases hm : Rst.multisatAny (parts.map (fun p => (p.1, p.2.2))) = true
    · rw [if_pos hm, if_pos hm]; rfl
    · rw [if_neg hm, if_neg hm]; rfl
  · -- nucleus before satellite
    obtain ⟨k1, k2, rfl⟩ : ∃ k1 k2, kids' = [k1, k2] := by
      have hl := congrArg List.length h4
      simp at hl
      match kids', hl with
      | [k1, k2], _ => exact ⟨k1, k2, rfl⟩
    · simp only [List.map_cons, List.map_nil, List.cons.injEq, and_true] at h4
      show (do
        let relname ← hsRelname (some k2)
        let n ← resultAt (hsTransformAll [k1, k2]) 0
        let s ← resultAt (hsTransformAll [k1, k2]) 1
        return PTree.node relname [.node ['N'] [n], .node ['S'] [s]]) = _
      rw [h3, h4.2, hname]
      show (do
        let n ← hsResult t1
        let s ← hsResult t2
        return PTree.node name [.node ['N'] [n], .node ['S'] [s]]) = _
      by_cases m1 : t1.multisat = true
      · simp only [hsResult, m1, Rst.multisat, Rst.multisatAny, List.map_cons, List.map_nil]; simp; rfl
      · by_cases m2 : t2.multisat = true
        · simp only [hsResult, m1, m2, Rst.multisat, Rst.multisatAny, List.map_cons, List.map_nil]; simp; rfl
        · simp only [hsResult, m1, m2, Rst.multisat, Rst.multisatAny, List.map_cons, List.map_nil]; simp; rfl
  · -- satellite before nucleus
    obtain ⟨k1, k2, rfl⟩ : ∃ k1 k2, kids' = [k1, k2] := by
      have hl := congrArg List.length h4
      simp at hl
      match kids', hl with
      | [k1, k2], _ => exact ⟨k1, k2, rfl⟩
    · simp only [List.map_cons, List.map_nil, List.cons.injEq, and_true] at h4
      show (do
        let relname ← hsRelname (some k1)
        let s ← resultAt (hsTransformAll [k1, k2]) 0
        let n ← resultAt (hsTransformAll [k1, k2]) 1
        return PTree.node relname [.node ['S'] [s], .node ['N'] [n]]) = _
      rw [h3, h4.1, hname]
      show (do
        let s ← hsResult t2
        let n ← hsResult t1
        return PTree.node name [.node ['S'] [s], .node ['N'] [n]]) = _
      by_cases m2 : t2.multisat = true
      · simp only [hsResult, m2, Rst.multisat, Rst.multisatAny, List.map_cons, List.map_nil]; simp; rfl
      · by_cases m1 : t1.multisat = true
        · simp only [hsResult, m1, m2, Rst.multisat, Rst.multisatAny, List.map_cons, List.map_nil]; simp; rfl
        · simp only [hsResult, m1, m2, Rst.multisat, Rst.multisatAny, List.map_cons, List.map_nil]; simp; rfl
  · -- several satellites
    have hcn := count_hsType_nucleus (parts.map Prod.fst)
    have hcs := count_hsType_satellite (parts.map Prod.fst)
    rw [← hmm] at hcn hcs
    have hty : hsNuclearityType (parts.map (fun p => p.1.hsType)) = .ok .multisat := by
      unfold hsNuclearityType
      rw [if_neg (fun h => htext h.1), if_neg, if_neg, if_neg, if_neg, if_pos]
      · omega
      · omega
      · omega
      · exact fun h => h (List.count_pos_iff.1 (by omega))
      · exact fun h => h (List.count_pos_iff.1 (by omega))
    simp only [Except.bind_ok']
    rw [hty, hsResult, Rst.multisat]
    have : (parts.map (fun p => (p.1, p.2.2))).map Prod.fst = parts.map Prod.fst := by simp
    rw [this, decide_eq_true hs]
    rfl

theorem pyGet_nat {α : Type} (xs : List α) (i : Nat) (x : α) (h : xs[i]? = some x) : pyGet xs (i : Int) = .ok x := by
  unfold pyGet
  simp [h]

theorem hs_body {edus : List (List (List Char))} {T : Rst} {kids : List PTree} (h : HsBody capitalize edus T kids) : BodyOk edus T kids := by
  refine HsBody.rec (motive_1 := fun T kids _ => BodyOk edus T kids) (motive_2 := fun parts kids _ => PartsOk edus parts kids) ?_ ?_ ?_ ?_ h
  · intro i toks hi
    refine ⟨[.node ['t', 'e', 'x', 't'] [.leaf (joinChars [' '] toks)]], ?_, ?_⟩
    · simp only [hsAddEdusAll, hsAddEdus, pyIntE_decimal]
      show (do
        let k' ← (do
          let kids' ← (do
            let k' ← (do
              let toks ← pyGet edus i
              return PTree.leaf (joinChars [' '] toks))
            let ks' ← Except.ok []
            return k' :: ks')
          return PTree.node ['t', 'e', 'x', 't'] kids')
        let ks' ← Except.ok []
        return k' :: ks') = _
      rw [pyGet_nat _ _ _ hi]
      rfl
    · rintro label ⟨ty, hty, hinner⟩
      rw [hsTransform, hty]
      show (if ty = .root ∨ ty = .nucleus ∨ ty = .satellite then _ else _) = _
      rw [if_pos hinner]
      rfl
  · intro name parts kids hrel _ hp
    exact hs_relation hrel hp
  · exact ⟨[], rfl, rfl, rfl, rfl⟩
  · rintro n rel t parts body kids hnl _ _ ⟨body', hb1, hb2⟩ ⟨kids', h1, h2, h3, h4⟩
    refine ⟨.node (hsLabel n rel) body' :: kids', ?_, ?_, ?_, ?_⟩
    · rw [hsAddEdusAll, hsAddEdus, hb1, h1]; rfl
    · rw [hsChildTypes, hsTreeType_label, h2]; rfl
    · rw [hsTransformAll, h3, hb2 _ (innerLabel_hsLabel n rel)]; rfl
    · rw [List.map_cons, List.map_cons, h4, hsRelname_label _ _ _ hnl]

theorem readHs2015_eq {edus : List (List (List Char))} {T : Rst} {kids : List PTree} (h : HsBody capitalize edus T kids) :
    readHs2015 edus (.node ['R', 'O', 'O', 'T'] kids) = hsResult T := by
  obtain ⟨kids', h1, h2⟩ := hs_body h
  rw [readHs2015, hsAddEdus, h1]
  exact h2 ['R', 'O', 'O', 'T'] ⟨.root, rfl, .inl rfl⟩

/-- **C36** every parse without a nucleus that has several satellites is converted into the tree of its structure.  Missing from the full claim: nuclei with several
satellites, for which the code raises an exception (`c36_fails_multisat`). -/
theorem c36_convert_partial {edus : List (List (List Char))} {T : Rst} {kids : List PTree} (h : HsBody capitalize edus T kids) (hm : ¬ HasMultisat T) :
    readHs2015 edus (.node ['R', 'O', 'O', 'T'] kids) = .ok T.tree := by
  rw [readHs2015_eq h, hsResult, if_neg (fun hh => hm ((Rst.multisat_iff T).1 hh))]

/-- **C36** the converted tree has the EDUs of the structure in order -/
theorem c36_edus_partial {edus : List (List (List Char))} {T : Rst} {kids : List PTree} (h : HsBody capitalize edus T kids) (hm : ¬ HasMultisat T) :
    ∃ q, readHs2015 edus (.node ['R', 'O', 'O', 'T'] kids) = .ok q ∧ q.leaves = T.edus := ⟨_, c36_convert_partial h hm, Rst.leaves_tree T⟩

/-- **C36** fails: every parse in which some nucleus has several satellites raises a NameError -/
theorem c36_fails_multisat {edus : List (List (List Char))} {T : Rst} {kids : List PTree} (h : HsBody capitalize edus T kids) (hm : HasMultisat T) :
    readHs2015 edus (.node ['R', 'O', 'O', 'T'] kids) = .error .name := by
  rw [readHs2015_eq h, hsResult, if_pos ((Rst.multisat_iff T).2 hm)]

/-- the tokens of three EDUs -/
def c36Edus : List (List (List Char)) := [["Although".toList, "bad".toList], ["they".toList, "left".toList], ["and".toList, "slept".toList]]

theorem c36_edu0 : HsBody capitalize c36Edus (.edu "Although bad".toList) [.node ['t', 'e', 'x', 't'] [.leaf (decimal 0)]] :=
  .edu (toks := ["Although".toList, "bad".toList]) rfl
theorem c36_edu1 : HsBody capitalize c36Edus (.edu "they left".toList) [.node ['t', 'e', 'x', 't'] [.leaf (decimal 1)]] :=
  .edu (toks := ["they".toList, "left".toList]) rfl
theorem c36_edu2 : HsBody capitalize c36Edus (.edu "and slept".toList) [.node ['t', 'e', 'x', 't'] [.leaf (decimal 2)]] :=
  .edu (toks := ["and".toList, "slept".toList]) rfl

theorem c36_example : HsBody capitalize c36Edus (.rel "Contrast".toList [(.S, .edu "Although bad".toList),
      (.N, .rel "List".toList [(.N, .edu "they left".toList), (.N, .edu "and slept".toList)])])
    [.node "satellite:contrast".toList [.node ['t', 'e', 'x', 't'] [.leaf (decimal 0)]],
     .node "nucleus:span".toList [.node "nucleus:list".toList [.node ['t', 'e', 'x', 't'] [.leaf (decimal 1)]],
       .node "nucleus:list".toList [.node ['t', 'e', 'x', 't'] [.leaf (decimal 2)]]]] :=
  .rel (parts := [(.S, "contrast".toList, _), (.N, "span".toList, _)]) (.inr (.inl ⟨_, _, _, _, rfl, .inr rfl⟩))
    (.cons (n := .S) (by decide) c36_edu0 (.cons (n := .N) (by decide)
      (.rel (parts := [(.N, "list".toList, _), (.N, "list".toList, _)]) (.inl ⟨by decide, by simp; decide⟩)
        (.cons (n := .N) (by decide) c36_edu1 (.cons (n := .N) (by decide) c36_edu2 .nil))) .nil))

example : readHs2015 c36Edus (.node ['R', 'O', 'O', 'T'] [.node "satellite:contrast".toList [.node ['t', 'e', 'x', 't'] [.leaf (decimal 0)]],
     .node "nucleus:span".toList [.node "nucleus:list".toList [.node ['t', 'e', 'x', 't'] [.leaf (decimal 1)]],
       .node "nucleus:list".toList [.node ['t', 'e', 'x', 't'] [.leaf (decimal 2)]]]]) =
    .ok (.node "Contrast".toList [.node ['S'] [.leaf "Although bad".toList],
      .node ['N'] [.node "List".toList [.node ['N'] [.leaf "they left".toList], .node ['N'] [.leaf "and slept".toList]]]]) :=
  c36_convert_partial c36_example (fun h => absurd ((Rst.multisat_iff _).2 h) (by decide))

/-- **C36** a nucleus with two satellites: the claim fails -/
theorem c36_fails_example : ∃ kids, HsBody capitalize c36Edus (.rel [] [(.S, .edu "Although bad".toList), (.N, .edu "they left".toList), (.S, .edu "and slept".toList)]) kids ∧
    readHs2015 c36Edus (.node ['R', 'O', 'O', 'T'] kids) = .error .name := by
  have h : HsBody capitalize c36Edus (.rel [] [(.S, .edu "Although bad".toList), (.N, .edu "they left".toList), (.S, .edu "and slept".toList)]) _ :=
    .rel (parts := [(.S, "contrast".toList, _), (.N, "span".toList, _), (.S, "list".toList, _)]) (.inr (.inr ⟨by decide, by decide⟩))
      (.cons (n := .S) (by decide) c36_edu0 (.cons (n := .N) (by decide) c36_edu1 (.cons (n := .S) (by decide) c36_edu2 .nil)))
  exact ⟨_, h, c36_fails_multisat h ⟨_, _, .refl _, by decide⟩⟩

end Dg
