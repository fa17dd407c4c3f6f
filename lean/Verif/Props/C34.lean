import Verif.Lemmas.Dis
import Batteries.Lean.Except

/-!
**C34** DIS write/read round-trip: converting an RST tree to the .dis structure and reading it back with dis2tree yields the same RST tree.

`T.tree` is the project's tree of the rhetorical structure `T`, `T.disDoc` (Spec/Dis.lean) the .dis tree that stands for it.  The round trip normalises white space in
EDUs.  It fails for documents of a single EDU, for EDUs that contain the mark `_!`, for blank EDUs and for relations called N or S.
-/

namespace Dg
open Rst

theorem Rst.WellFormed.kid {name : List Char} {kids : List (Nuc × Rst)} (h : WellFormed (.rel name kids)) {k : Nuc × Rst} (hk : k ∈ kids) : WellFormed k.2 :=
  ⟨fun n ks hp => h.relation n ks (.kid (n := k.1) hk hp), fun s hp => h.nonblank s (.kid (n := k.1) hk hp)⟩

theorem Rst.NoMarks.kid {name : List Char} {kids : List (Nuc × Rst)} (h : NoMarks (.rel name kids)) {k : Nuc × Rst} (hk : k ∈ kids) : NoMarks k.2 :=
  fun s hp => h s (.kid (n := k.1) hk hp)

theorem Rst.WellFormed.edus_ne_nil {t : Rst} (h : WellFormed t) : t.edus ≠ [] := by
  induction t using Rst.ind with
  | h1 s => simp [edus]
  | h2 a kids ih =>
    have hr := (h.relation a kids (.refl _)).1
    have hne : kids ≠ [] := by
      rintro rfl
      simp at hr
    obtain ⟨k, ks, rfl⟩ := List.exists_cons_of_ne_nil hne
    rw [edus, edusAll_eq, List.flatMap_cons]
    intro he
    exact ih k (by simp) (h.kid (by simp)) (List.append_eq_nil_iff.1 he).1

theorem label?_node (n : Nuc) (t : PTree) : (PTree.node n.label [t]).label? = some n.label := rfl

theorem convertLabel_nuc (n : Nuc) : convertLabel n.label = disLabel n := by cases n <;> rfl

theorem eraseIdx_map' {α β : Type} (f : α → β) (l : List α) (i : Nat) : (l.map f).eraseIdx i = (l.eraseIdx i).map f := by
  induction l generalizing i with
  | nil => rfl
  | cons a l ih => cases i <;> simp [List.eraseIdx, ih]

/-- the labels of the siblings -/
theorem sibling_labels (kids : List (Nuc × Rst)) (i : Nat) :
    ((treeAll kids).eraseIdx i).map (fun k => k.label?.getD []) = (kids.map Prod.fst |>.eraseIdx i).map Nuc.label := by
  rw [treeAll_eq, eraseIdx_map', eraseIdx_map', List.map_map, List.map_map]
  rfl

/-- the relation of a part to its parent -/
theorem makeRel2par_part {name : List Char} {kids : List (Nuc × Rst)}
    (hr : kids.map Prod.fst = [.N, .S] ∨ kids.map Prod.fst = [.S, .N] ∨ (2 ≤ kids.length ∧ ∀ k ∈ kids, k.1 = .N)) {i : Nat} {n : Nuc}
    (hi : (kids.map Prod.fst)[i]? = some n) :
    makeRel2par n.label name (treeAll kids) i = .ok (.node ['r', 'e', 'l', '2', 'p', 'a', 'r'] [.leaf (disRole name (kids.map Prod.fst) n)]) := by
  have hany : (treeAll kids).any (fun k => k.label? = none) = false := by
    rw [treeAll_eq]
    simp [PTree.label?]
  cases n with
  | S => rfl
  | N =>
    have h1 : Nuc.N.label ≠ ['S'] := by decide
    have h2 : Nuc.N.label = ['N'] := by decide
    rw [makeRel2par, if_neg h1, if_pos h2, hany]
    simp only [Bool.false_eq_true, if_false, sibling_labels]
    rcases hr with hr | hr | ⟨_, hr⟩
    · rw [hr] at hi ⊢
      match i, hi with
      | 0, _ => rfl
      | 1, hi => simp at hi
    · rw [hr] at hi ⊢
      match i, hi with
      | 0, hi => simp at hi
      | 1, _ => rfl
    · have hS : Nuc.S ∉ kids.map Prod.fst := by
        intro h
        obtain ⟨k, hk, he⟩ := List.mem_map.1 h
        rw [hr k hk] at he; cases he
      have hall : ∀ m ∈ (kids.map Prod.fst).eraseIdx i, m = Nuc.N := by
        intro m hm
        obtain ⟨k, hk, rfl⟩ := List.mem_map.1 (List.mem_of_mem_eraseIdx hm)
        exact hr k hk
      rw [if_neg, if_pos]
      · simp only [disRole, if_neg hS]; rfl
      · rw [List.all_eq_true]
        intro l hl
        obtain ⟨m, hm, rfl⟩ := List.mem_map.1 hl
        rw [hall m hm]; decide
      · intro he
        have : (['S'] : List Char) ∈ ((kids.map Prod.fst).eraseIdx i).map Nuc.label := by rw [he]; simp
        obtain ⟨m, hm, hml⟩ := List.mem_map.1 this
        rw [hall m hm] at hml
        revert hml; decide

/-- the leaves of a nucleus or satellite -/
theorem leafPositions_part (n : Nuc) (t : Rst) : (PTree.node n.label [t.tree]).leafPositions = t.tree.leafPositions.map (fun p => 0 :: p) := by
  simp [PTree.leafPositions, PTree.leafPositionsAll]

theorem disConvertAt_tree {all : List (List Nat)} (hnd : all.Nodup) (t : Rst) (hwf : WellFormed t) (pos : List Nat) (A B : List (List Nat))
    (hall : all = A ++ t.tree.leafPositions.map (fun p => pos ++ p) ++ B) (pl : List Char) (sibs : List PTree) (i : Nat) :
    disConvertAt all pos pl sibs i t.tree = .ok (disBelow (A.length + 1) t) := by
  induction t using Rst.ind generalizing pos A B pl sibs i with
  | h1 s =>
    rw [tree, disConvertAt, makeEdu_eq (hwf.nonblank s (.refl _))]
    rfl
  | h2 name kids ih =>
    obtain ⟨hr, hN, hS⟩ := hwf.relation name kids (.refl _)
    rw [tree, disConvertAt, if_neg (by simp [hN, hS]), disBelow]
    -- the loop over the parts
    have loop : ∀ (ks pre : List (Nuc × Rst)) (A : List (List Nat)), kids = pre ++ ks →
        all = A ++ (PTree.leafPositionsAll pre.length (treeAll ks)).map (fun p => pos ++ p) ++ B →
        disConvertKids all pos name (treeAll kids) pre.length (treeAll ks) = .ok (disParts (A.length + 1) name (kids.map Prod.fst) ks) := by
      intro ks
      induction ks with
      | nil => intro pre A _ _; rfl
      | cons k ks ihk =>
        intro pre A hkids hA
        obtain ⟨n, t⟩ := k
        have hmem : (n, t) ∈ kids := by rw [hkids]; simp
        have hwt := hwf.kid hmem
        have hlenP := Rst.leafPositions_length t
        have hni : (kids.map Prod.fst)[pre.length]? = some n := by rw [hkids]; simp
        have hblock : all = A ++ (PTree.node n.label [t.tree]).leafPositions.map (fun p => (pos ++ [pre.length]) ++ p) ++
            ((PTree.leafPositionsAll (pre.length + 1) (treeAll ks)).map (fun p => pos ++ p) ++ B) := by
          rw [hA, treeAll, PTree.leafPositionsAll, List.map_append, List.map_map]
          simp [Function.comp_def]
        have hblock2 : all = A ++ t.tree.leafPositions.map (fun p => (pos ++ [pre.length] ++ [0]) ++ p) ++
            ((PTree.leafPositionsAll (pre.length + 1) (treeAll ks)).map (fun p => pos ++ p) ++ B) := by
          rw [hblock, leafPositions_part, List.map_map]
          simp [Function.comp_def]
        have hne : (PTree.node n.label [t.tree]).leafPositions ≠ [] := by
          rw [leafPositions_part]
          intro he
          have := congrArg List.length he
          rw [List.length_map, hlenP] at this
          exact hwt.edus_ne_nil (List.length_eq_zero_iff.1 this)
        have hspan := makeSpan_block hnd hblock hne
        have hl : (PTree.node n.label [t.tree]).leafPositions.length = t.edus.length := by rw [leafPositions_part, List.length_map, hlenP]
        rw [hl] at hspan
        have hrel := makeRel2par_part (name := name) hr hni
        have hbelow := ih (n, t) hmem hwt (pos ++ [pre.length] ++ [0]) A _ hblock2 n.label [t.tree] 0
        have hrest := ihk (pre ++ [(n, t)]) (A ++ t.tree.leafPositions.map (fun p => (pos ++ [pre.length] ++ [0]) ++ p)) (by simp [hkids])
          (by rw [hblock2]; simp)
        have hlenA : (A ++ t.tree.leafPositions.map (fun p => (pos ++ [pre.length] ++ [0]) ++ p)).length + 1 = A.length + 1 + t.edus.length := by
          simp only [List.length_append, List.length_map, hlenP]; omega
        rw [hlenA] at hrest
        simp only [List.length_append, List.length_cons, List.length_nil, Nat.zero_add] at hrest
        have hnuc : n.label = ['N'] ∨ n.label = ['S'] := by cases n <;> simp [Nuc.label, Nuc.char]
        simp only [treeAll, disConvertKids, disConvertAt, if_pos hnuc, hspan, hrel, hbelow, hrest, except_bind_ok, convertLabel_nuc, disParts]
        simp only [List.append_nil]
        rfl
    exact loop kids [] A rfl (by simpa [PTree.leafPositions, tree] using hall)

/-- **C34** (writing) the .dis tree written for a well-formed structure is the one that stands for it: every nucleus and satellite with the numbers of its EDUs, its role
in the relation and its parts or its words -/
theorem c34_write {T : Rst} (hwf : WellFormed T) (hrel : ∀ s, T ≠ .edu s) : disConvert T.tree = .ok T.disDoc := by
  cases T with
  | edu s => exact absurd rfl (hrel s)
  | rel name kids =>
    have h := disConvertAt_tree (PTree.leafPositions_nodup (Rst.rel name kids).tree) (.rel name kids) hwf [] [] [] (by simp) [] [] 0
    obtain ⟨_, hN, hS⟩ := hwf.relation name kids (.refl _)
    have hlen := Rst.leafPositions_length (.rel name kids)
    rw [tree] at h hlen ⊢
    rw [disConvertAt, if_neg (by simp [hN, hS])] at h
    rw [disConvert]
    simp only [h, except_bind_ok, hlen, disDoc]
    rfl

/-! ### Reading -/

theorem disTreeType_nuc (n : Nuc) (kids : List PTree) : disTreeType (.node (disLabel n) kids) = .ok (match n with | .N => .nuc | .S => .sat) := by
  cases n <;> rfl

/-- the type of a nuclearity -/
def Nuc.disType : Nuc → DisType
  | .N => .nuc
  | .S => .sat

theorem disChildTypes_parts (first : Nat) (name : List Char) (nucs : List Nuc) (kids : List (Nuc × Rst)) :
    disChildTypes (disParts first name nucs kids) = .ok (kids.map (fun k => k.1.disType)) := by
  induction kids generalizing first with
  | nil => rfl
  | cons k ks ih =>
    obtain ⟨n, t⟩ := k
    rw [disParts, disChildTypes, disTreeType_nuc, ih]
    cases n <;> rfl

theorem allResults_ok (ts : List PTree) : allResults (ts.map Except.ok) = .ok ts := by
  induction ts with
  | nil => rfl
  | cons t ts ih => simp only [List.map_cons, allResults, ih]; rfl

theorem disRelationType_part (n : Nuc) (r : PTree) (name : List Char) (ks : List PTree) :
    disRelationType (some (.node (disLabel n) (r :: .node ['r', 'e', 'l', '2', 'p', 'a', 'r'] [.leaf name] :: ks))) = .ok name := rfl

theorem eraseDups_replicate (n : Nat) (a : DisType) : (List.replicate (n + 1) a).eraseDups = [a] := by
  rw [List.replicate_succ, List.eraseDups_cons]
  have : (List.replicate n a).filter (fun b => !b == a) = [] := by
    rw [List.filter_eq_nil_iff]
    intro b hb
    rw [List.mem_replicate] at hb
    simp [hb.2]
  rw [this]
  rfl

/-- the relation read from its parts -/
theorem disRelation_parts {first : Nat} {name : List Char} {kids : List (Nuc × Rst)}
    (hr : kids.map Prod.fst = [.N, .S] ∨ kids.map Prod.fst = [.S, .N] ∨ (2 ≤ kids.length ∧ ∀ k ∈ kids, k.1 = .N))
    (hres : dis2treeAll (disParts first name (kids.map Prod.fst) kids) = (kids.map (fun k => PTree.node k.1.label [(k.2.mapEdus readEdu).tree])).map Except.ok) :
    disRelation (disParts first name (kids.map Prod.fst) kids) (dis2treeAll (disParts first name (kids.map Prod.fst) kids)) =
      .ok ((Rst.rel name kids).mapEdus readEdu).tree := by
  rw [disRelation, hres]
  have htree : ((Rst.rel name kids).mapEdus readEdu).tree = .node name (kids.map (fun k => PTree.node k.1.label [(k.2.mapEdus readEdu).tree])) := by
    rw [mapEdus, tree, treeAll_eq, mapEdusAll_eq, List.map_map]
    rfl
  rw [htree, disChildTypes_parts]
  rcases hr with hr | hr | ⟨hlen, hr⟩
  · match kids, hr with
    | [(n1, t1), (n2, t2)], hr =>
      simp only [List.map_cons, List.map_nil, List.cons.injEq, and_true] at hr
      obtain ⟨rfl, rfl⟩ := hr
      rfl
  · match kids, hr with
    | [(n1, t1), (n2, t2)], hr =>
      simp only [List.map_cons, List.map_nil, List.cons.injEq, and_true] at hr
      obtain ⟨rfl, rfl⟩ := hr
      rfl
  · have htys : kids.map (fun k => k.1.disType) = List.replicate kids.length .nuc := by
      rw [List.eq_replicate_iff]
      refine ⟨by simp, fun b hb => ?_⟩
      obtain ⟨k, hk, rfl⟩ := List.mem_map.1 hb
      rw [hr k hk]; rfl
    have hname : disRelationType (disParts first name (kids.map Prod.fst) kids)[0]? = .ok name := by
      have hS : Nuc.S ∉ kids.map Prod.fst := by
        intro h
        obtain ⟨k, hk, he⟩ := List.mem_map.1 h
        rw [hr k hk] at he; cases he
      match kids, hlen, hr, hS with
      | (n, t) :: ks, _, hr, hS =>
        have hn := hr (n, t) (by simp)
        simp only at hn
        subst hn
        generalize hnu : List.map Prod.fst ((Nuc.N, t) :: ks) = nucs at hS ⊢
        rw [disParts, List.getElem?_cons_zero, disRelationType_part, disRole, if_neg hS]
    rw [except_bind_ok, htys]
    obtain ⟨m, hm⟩ : ∃ m, kids.length = m + 1 := ⟨kids.length - 1, by omega⟩
    rw [hm, eraseDups_replicate, if_pos (by rfl : [DisType.nuc].length = 1), if_neg, if_neg]
    · rw [allResults_ok, except_bind_ok, hname]; rfl
    · simp; omega
    · simp [List.mem_replicate]

theorem dis2tree_part {T : Rst} (hwf : WellFormed T) (first : Nat) (n : Nuc) (role : List Char) :
    dis2tree true (.node (disLabel n) (disRange first T.edus.length :: .node ['r', 'e', 'l', '2', 'p', 'a', 'r'] [.leaf role] :: disBelow first T)) =
      .ok (.node n.label [(T.mapEdus readEdu).tree]) := by
  induction T using Rst.ind generalizing first n role with
  | h1 s =>
    rw [dis2tree, disTreeType_nuc]
    simp only [disBelow, edus, disRange, List.length_cons, List.length_nil, Nat.zero_add, if_true]
    show (do
      let edu ← getEduText (.node ['t', 'e', 'x', 't'] ((Rst.disWords (splitWs s)).map PTree.leaf))
      return disWrap _ (.leaf edu)) = _
    rw [getEduText_words (hwf.nonblank s (.refl _))]
    cases n <;> rfl
  | h2 name kids ih =>
    have hr := (hwf.relation name kids (.refl _)).1
    have hres : ∀ ks : List (Nuc × Rst), (∀ k ∈ ks, k ∈ kids) → ∀ first, dis2treeAll (disParts first name (kids.map Prod.fst) ks) =
        (ks.map (fun k => PTree.node k.1.label [(k.2.mapEdus readEdu).tree])).map Except.ok := by
      intro ks hks
      induction ks with
      | nil => intro first; rfl
      | cons k ks ihk =>
        intro first
        obtain ⟨m, t⟩ := k
        have hk := hks (m, t) (by simp)
        rw [disParts, dis2treeAll, ihk (fun k h => hks k (by simp [h])), ih (m, t) hk (hwf.kid hk)]
        rfl
    have h2 : 2 ≤ (Rst.rel name kids).edus.length := by
      have hk2 : 2 ≤ kids.length := by
        rcases hr with hr | hr | hr
        · have := congrArg List.length hr; simp at this; omega
        · have := congrArg List.length hr; simp at this; omega
        · exact hr.1
      match kids, hk2, hwf with
      | k1 :: k2 :: ks, _, hwf =>
        have e1 := List.length_pos_of_ne_nil (hwf.kid (k := k1) (by simp)).edus_ne_nil
        have e2 := List.length_pos_of_ne_nil (hwf.kid (k := k2) (by simp)).edus_ne_nil
        rw [edus, edusAll_eq]
        simp only [List.flatMap_cons, List.length_append]
        omega
    have hrange : ∃ a b, disRange first (Rst.rel name kids).edus.length = .node ['s', 'p', 'a', 'n'] [a, b] := by
      refine ⟨.leaf (decimal first), .leaf (decimal (first + (Rst.rel name kids).edus.length - 1)), ?_⟩
      rw [disRange, if_neg (by omega)]
    obtain ⟨a, b, hab⟩ := hrange
    rw [hab, dis2tree, disTreeType_nuc]
    have hrel := disRelation_parts (first := first) (name := name) hr (hres kids (fun _ h => h) first)
    cases n with
    | N =>
      show (do
        let t ← disRelation (disBelow first (.rel name kids)) (dis2treeAll (disBelow first (.rel name kids)))
        return disWrap .nuc t) = _
      rw [disBelow, hrel]
      rfl
    | S =>
      show (do
        let t ← disRelation (disBelow first (.rel name kids)) (dis2treeAll (disBelow first (.rel name kids)))
        return disWrap .sat t) = _
      rw [disBelow, hrel]
      rfl

theorem dis2tree_doc {T : Rst} (hwf : WellFormed T) (hrel : ∀ s, T ≠ .edu s) : dis2tree false T.disDoc = .ok (T.mapEdus readEdu).tree := by
  cases T with
  | edu s => exact absurd rfl (hrel s)
  | rel name kids =>
    have hr := (hwf.relation name kids (.refl _)).1
    have hres : ∀ ks : List (Nuc × Rst), (∀ k ∈ ks, k ∈ kids) → ∀ first, dis2treeAll (disParts first name (kids.map Prod.fst) ks) =
        (ks.map (fun k => PTree.node k.1.label [(k.2.mapEdus readEdu).tree])).map Except.ok := by
      intro ks hks
      induction ks with
      | nil => intro first; rfl
      | cons k ks ihk =>
        intro first
        obtain ⟨m, t⟩ := k
        have hk := hks (m, t) (by simp)
        rw [disParts, dis2treeAll, ihk (fun k h => hks k (by simp [h])), dis2tree_part (hwf.kid hk)]
        rfl
    have hrelat := disRelation_parts (first := 1) (name := name) hr (hres kids (fun _ h => h) 1)
    rw [disDoc, dis2tree]
    show (disRelation (disBelow 1 (.rel name kids)) (dis2treeAll (disBelow 1 (.rel name kids))) >>= fun t => pure t) = _
    rw [disBelow, hrelat]
    rfl

/-- **C34** (reading) the .dis tree of a well-formed structure is read as the tree of that structure (white space normalised) -/
theorem c34_read {T : Rst} (hwf : WellFormed T) (hm : NoMarks T) (hrel : ∀ s, T ≠ .edu s) : dis2tree false T.disDoc = .ok T.normalWs.tree := by
  rw [dis2tree_doc hwf hrel, normalWs, mapEdus_congr (fun s hs => readEdu_eq (hm s hs))]

/-- **C34** writing a well-formed document with at least one relation in .dis format and reading it back gives the same tree (white space in EDUs normalised).
Missing from the full claim: documents of one EDU, EDUs that are blank or contain `_!`, relations called N or S, for which it fails (see below). -/
theorem c34_roundtrip_partial {T : Rst} (hwf : WellFormed T) (hm : NoMarks T) (hrel : ∀ s, T ≠ .edu s) :
    (disConvert T.tree >>= dis2tree false) = .ok T.normalWs.tree := by
  rw [c34_write hwf hrel]
  exact c34_read hwf hm hrel

/-- the words of the text are those of the text with normalised white space: nothing is lost but white space -/
theorem c34_words (s : List Char) : splitWs (joinChars [' '] (splitWs s)) = splitWs s := by
  have aux : ∀ (w : List Char) (cur r : List Char), (∀ c ∈ w, isUniSpace c = false) → splitWsAux cur (w ++ r) = splitWsAux (w.reverse ++ cur) r := by
    intro w
    induction w with
    | nil => intro cur r _; rfl
    | cons c w ih =>
      intro cur r h
      rw [List.cons_append, splitWsAux, h c (by simp)]
      simp only [Bool.false_eq_true, if_false]
      rw [ih _ _ (fun c hc => h c (by simp [hc]))]
      simp
  have key : ∀ ws : List (List Char), (∀ w ∈ ws, w ≠ [] ∧ ∀ c ∈ w, isUniSpace c = false) → splitWs (joinChars [' '] ws) = ws := by
    intro ws
    induction ws with
    | nil => intro _; rfl
    | cons w ws ih =>
      intro h
      have hw := h w (by simp)
      cases ws with
      | nil =>
        rw [joinChars, splitWs]
        have := aux w [] [] hw.2
        simp at this
        rw [this, splitWsAux, if_neg (by simpa using hw.1)]
        simp
      | cons v vs =>
        have hv := ih (fun w hw => h w (by simp [List.mem_cons.1 hw]))
        rw [joinChars, splitWs, List.append_assoc, aux w [] _ hw.2]
        simp only [List.append_nil, List.cons_append, List.nil_append]
        rw [splitWsAux, if_pos (by decide), if_neg (by simpa using hw.1), List.reverse_reverse]
        rw [splitWs] at hv
        rw [hv]
  exact key _ (fun w hw => splitWs_mem hw)

/-- a structure with a relation below a relation and white space in an EDU -/
def c34Example : Rst := .rel ['c', 'o', 'n', 't', 'r'] [(.S, .edu ['a', ' ', '\n', 'b']),
  (.N, .rel ['j', 'o', 'i', 'n'] [(.N, .edu ['c']), (.N, .edu ['d'])])]

theorem c34_part_example {s : Rst} (h : Part s c34Example) : s = c34Example ∨ s = .edu ['a', ' ', '\n', 'b'] ∨
    s = .rel ['j', 'o', 'i', 'n'] [(.N, .edu ['c']), (.N, .edu ['d'])] ∨ s = .edu ['c'] ∨ s = .edu ['d'] := by
  cases h with
  | refl => exact .inl rfl
  | kid hk h =>
    simp at hk
    rcases hk with ⟨_, rfl⟩ | ⟨_, rfl⟩
    · cases h; exact .inr (.inl rfl)
    · cases h with
      | refl => exact .inr (.inr (.inl rfl))
      | kid hk h =>
        simp at hk
        rcases hk with ⟨_, rfl⟩ | ⟨_, rfl⟩
        · cases h; exact .inr (.inr (.inr (.inl rfl)))
        · cases h; exact .inr (.inr (.inr (.inr rfl)))

theorem c34_example_wf : WellFormed c34Example := by
  constructor
  · intro name kids h
    rcases c34_part_example h with h | h | h | h | h <;> simp only [c34Example, Rst.rel.injEq, reduceCtorEq] at h
    · obtain ⟨rfl, rfl⟩ := h; exact ⟨.inr (.inl rfl), by decide, by decide⟩
    · obtain ⟨rfl, rfl⟩ := h; exact ⟨.inr (.inr ⟨by simp, by simp⟩), by decide, by decide⟩
  · intro s h
    rcases c34_part_example h with h | h | h | h | h <;> simp only [c34Example, Rst.edu.injEq, reduceCtorEq] at h <;> subst h <;> decide

theorem c34_example_marks : NoMarks c34Example := by
  intro s h
  rcases c34_part_example h with h | h | h | h | h <;> simp only [c34Example, Rst.edu.injEq, reduceCtorEq] at h <;> subst h <;> decide

example : (disConvert c34Example.tree >>= dis2tree false) = .ok c34Example.normalWs.tree :=
  c34_roundtrip_partial c34_example_wf c34_example_marks (by simp [c34Example])

example : c34Example.normalWs.edus = [['a', ' ', 'b'], ['c'], ['d']] := by decide +kernel

/-- **C34** fails for a document of a single EDU: it is written, but reading it back raises an AssertionError -/
theorem c34_fails_single_edu {s : List Char} (h : ∃ c ∈ s, isUniSpace c = false) :
    ∃ d, disConvert (Rst.edu s).docTree = .ok d ∧ dis2tree false d = .error .assertion := by
  refine ⟨.node ['R', 'o', 'o', 't'] [.node ['s', 'p', 'a', 'n'] [.leaf ['1'], .leaf (decimal 1)], .node ['t', 'e', 'x', 't'] ((disWords (splitWs s)).map PTree.leaf)], ?_, ?_⟩
  · rw [docTree, disConvert]
    simp only [disConvertKids, disConvertAt, makeEdu_eq h, except_bind_ok]
    rfl
  · rw [dis2tree]; rfl

/-- **C34** fails for blank EDUs: writing raises an IndexError -/
theorem c34_fails_blank : disConvert (.node ['j', 'o', 'i', 'n', 't'] [.node ['N'] [.leaf ['a']], .node ['N'] [.leaf [' ']]]) = .error .index := rfl

/-- **C34** fails for EDUs that contain the mark `_!`: the marks are lost -/
theorem c34_fails_mark : ∃ T, WellFormed T ∧ (∀ s, T ≠ .edu s) ∧ T.edus = [['x', '_', '!', 'y'], ['z']] ∧
    ∃ q, (disConvert T.tree >>= dis2tree false) = .ok q ∧ q.leaves = [['x', 'y', '_', '!'], ['z']] := by
  have hwf : WellFormed (.rel ['j'] [(.N, .edu ['x', '_', '!', 'y']), (.N, .edu ['z'])]) := by
    constructor
    · intro name kids h
      cases h with
      | refl => exact ⟨.inr (.inr ⟨by simp, by simp⟩), by decide, by decide⟩
      | kid hk h => simp at hk; rcases hk with ⟨_, rfl⟩ | ⟨_, rfl⟩ <;> cases h
    · intro s h
      cases h with
      | kid hk h => simp at hk; rcases hk with ⟨_, rfl⟩ | ⟨_, rfl⟩ <;> cases h <;> decide
  refine ⟨_, hwf, by simp, rfl, _, by rw [c34_write hwf (by simp)]; exact dis2tree_doc hwf (by simp), ?_⟩
  rw [leaves_tree]
  decide +kernel

/-- **C34** fails if a relation is called like a nuclearity: the file is written but cannot be read -/
theorem c34_fails_relation_name : ∃ d, disConvert (Rst.rel ['j'] [(.N, .rel ['N'] [(.N, .edu ['a']), (.N, .edu ['b'])]), (.N, .edu ['c'])]).tree = .ok d ∧
    dis2tree false d = .error .assertion := by
  refine ⟨_, rfl, ?_⟩
  rw [dis2tree]
  rfl

end Dg
