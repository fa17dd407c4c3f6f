import Verif.Model.Rs3Write
import Verif.Spec.Rs3
import Verif.Lemmas.Rst
import Verif.Lemmas.Chains

/-! Tree positions and the elements the .rs3 writer emits. -/

namespace Dg
open Rst Rs3Writer
open DG (mapE mapE_ok mapE_total)

theorem mapE_append_ok {α β : Type} {f : α → Except PyErr β} {xs ys : List α} {as bs : List β} (h1 : mapE f xs = .ok as) (h2 : mapE f ys = .ok bs) :
    mapE f (xs ++ ys) = .ok (as ++ bs) := by
  rw [mapE_ok] at h1 h2 ⊢
  exact List.rel_append h1 h2

theorem treepositionsAll_mem (ts : List PTree) : ∀ (i : Nat) (p : List Nat), p ∈ PTree.treepositionsAll i ts → ∃ j q, i ≤ j ∧ p = j :: q := by
  induction ts with
  | nil => intro i p h; simp [PTree.treepositionsAll] at h
  | cons t ts ih =>
    intro i p h
    rw [PTree.treepositionsAll, List.mem_append] at h
    rcases h with h | h
    · obtain ⟨q, _, rfl⟩ := List.mem_map.1 h; exact ⟨i, q, Nat.le_refl _, rfl⟩
    · obtain ⟨j, q, hj, rfl⟩ := ih (i + 1) p h; exact ⟨j, q, by omega, rfl⟩

theorem posLe_cons_same (i : Nat) (p q : List Nat) : posLe (i :: p) (i :: q) = posLe p q := by simp [posLe]

theorem posLe_cons_lt {i j : Nat} (h : i < j) (p q : List Nat) : posLe (i :: p) (j :: q) = true := by
  unfold posLe
  rw [if_neg (by omega)]
  simpa using h

/-- preorder is the lexicographic order of positions -/
theorem treepositions_sorted (t : PTree) : t.treepositions.Pairwise (fun a b => posLe a b = true ∧ a ≠ b) := by
  induction t using PTree.ind with
  | h1 s => simp [PTree.treepositions]
  | h0 => simp [PTree.treepositions]
  | h2 a kids ih =>
    rw [PTree.treepositions, List.pairwise_cons]
    constructor
    · intro p hp
      obtain ⟨j, q, _, rfl⟩ := treepositionsAll_mem kids 0 p hp
      exact ⟨rfl, by simp⟩
    · have key : ∀ (ts : List PTree) (i : Nat), (∀ k ∈ ts, k.treepositions.Pairwise (fun a b => posLe a b = true ∧ a ≠ b)) →
          (PTree.treepositionsAll i ts).Pairwise (fun a b => posLe a b = true ∧ a ≠ b) := by
        intro ts
        induction ts with
        | nil => intro i _; simp [PTree.treepositionsAll]
        | cons t ts ih2 =>
          intro i h
          rw [PTree.treepositionsAll, List.pairwise_append]
          refine ⟨?_, ih2 (i + 1) (fun k hk => h k (List.mem_cons_of_mem _ hk)), ?_⟩
          · rw [List.pairwise_map]
            refine (h t (by simp)).imp ?_
            rintro a b ⟨h1, h2⟩
            rw [posLe_cons_same]
            exact ⟨h1, by simpa using h2⟩
          · intro p hp q hq
            obtain ⟨p', _, rfl⟩ := List.mem_map.1 hp
            obtain ⟨j, q', hj, rfl⟩ := treepositionsAll_mem ts (i + 1) q hq
            refine ⟨posLe_cons_lt (by omega) _ _, ?_⟩
            intro e
            simp at e
            omega
      exact key kids 0 ih

theorem treepositions_nodup (t : PTree) : t.treepositions.Nodup := (treepositions_sorted t).imp (fun h => h.2)

theorem insertSorted_le {α : Type} {le : α → α → Bool} {x : α} {ys : List α} (h : ∀ y ∈ ys, le x y = true) : insertSorted le x ys = x :: ys := by
  cases ys with
  | nil => rfl
  | cons y ys => rw [insertSorted, if_pos (h y (by simp))]

theorem pySorted_of_sorted {α : Type} {le : α → α → Bool} {xs : List α} (h : xs.Pairwise (fun a b => le a b = true)) : pySorted le xs = xs := by
  induction xs with
  | nil => rfl
  | cons x xs ih =>
    rw [List.pairwise_cons] at h
    rw [pySorted, ih h.2, insertSorted_le h.1]

theorem pySorted_treepositions (t : PTree) : pySorted posLe t.treepositions = t.treepositions :=
  pySorted_of_sorted ((treepositions_sorted t).imp (fun h => h.1))

theorem at?_append (t : PTree) (p q : List Nat) : t.at? (p ++ q) = (t.at? p).bind (fun s => s.at? q) := by
  induction p generalizing t with
  | nil => rfl
  | cons i p ih =>
    rw [List.cons_append, PTree.at?, PTree.at?]
    cases t.children[i]? with
    | none => rfl
    | some k => exact ih k

theorem treepositions_part (n : Nuc) (t : Rst) : (PTree.node n.label [t.tree]).treepositions = [] :: t.tree.treepositions.map (fun p => 0 :: p) := by
  rw [PTree.treepositions, PTree.treepositionsAll, PTree.treepositionsAll, List.append_nil]

theorem treepositions_length (t : Rst) : t.tree.treepositions.length = t.nodes := by
  induction t using Rst.ind with
  | h1 s => rfl
  | h2 a kids ih =>
    rw [tree, PTree.treepositions, nodes, List.length_cons]
    have key : ∀ (ks : List (Nuc × Rst)) (i : Nat), (∀ k ∈ ks, k.2.tree.treepositions.length = k.2.nodes) →
        (PTree.treepositionsAll i (treeAll ks)).length = nodesAll ks := by
      intro ks
      induction ks with
      | nil => intro i _; rfl
      | cons k ks ih2 =>
        obtain ⟨n, t⟩ := k
        intro i h
        have h1 := h (n, t) (by simp)
        dsimp only at h1
        rw [treeAll, PTree.treepositionsAll, nodesAll, treepositions_part, List.length_append, ih2 (i + 1) (fun k hk => h k (List.mem_cons_of_mem _ hk)),
          List.length_map, List.length_cons, List.length_map, h1]
        omega
    rw [key kids 0 ih]
    omega

/-- the number of a position in a block of the positions -/
theorem nodeId_block {R : PTree} {A B X Y : List (List Nat)} {x : List Nat} (h : R.treepositions = A ++ (X ++ x :: Y) ++ B) :
    nodeId R x = decimal (A.length + X.length + 1) := by
  unfold nodeId
  have hnd := treepositions_nodup R
  have h2 : R.treepositions = (A ++ X) ++ x :: (Y ++ B) := by rw [h]; simp
  rw [h2] at hnd ⊢
  have hx : x ∉ A ++ X := by
    rw [List.nodup_append] at hnd
    intro hm
    exact hnd.2.2 _ hm _ List.mem_cons_self rfl
  rw [List.idxOf_append_of_notMem hx, List.idxOf_cons_self, List.length_append]

theorem Rst.Regular.kid {name : List Char} {kids : List (Nuc × Rst)} (h : Regular (.rel name kids)) {k : Nuc × Rst} (hk : k ∈ kids) : Regular k.2 :=
  fun n ks hp => h n ks (.kid (by exact hk) hp)

theorem treeAll_getElem? (kids : List (Nuc × Rst)) (j : Nat) : (treeAll kids)[j]? = (kids[j]?).map (fun k => PTree.node k.1.label [k.2.tree]) := by
  rw [treeAll_eq, List.getElem?_map]

/-- the part number `j` of a relation -/
theorem at?_part {R : PTree} {pos : List Nat} {name : List Char} {kids : List (Nuc × Rst)} (h : R.at? pos = some (Rst.rel name kids).tree) {j : Nat} {k : Nuc} {t : Rst}
    (hj : kids[j]? = some (k, t)) : R.at? (pos ++ [j]) = some (.node k.label [t.tree]) ∧ R.at? (pos ++ [j, 0]) = some t.tree := by
  constructor
  · rw [at?_append, h]
    show (Rst.rel name kids).tree.at? [j] = _
    rw [PTree.at?, tree, PTree.children, treeAll_getElem?, hj]
    rfl
  · rw [at?_append, h]
    show (Rst.rel name kids).tree.at? [j, 0] = _
    rw [PTree.at?, tree, PTree.children, treeAll_getElem?, hj]
    rfl

theorem childrenPos_rel {R : PTree} {pos : List Nat} {name : List Char} {kids : List (Nuc × Rst)} (h : R.at? pos = some (Rst.rel name kids).tree) :
    childrenPos R pos = (List.range kids.length).map (fun i => pos ++ [i]) := by
  unfold childrenPos
  rw [h]
  simp [tree, PTree.children, treeAll_eq]

theorem childrenPos_part {R : PTree} {pos : List Nat} {name : List Char} {kids : List (Nuc × Rst)} (h : R.at? pos = some (Rst.rel name kids).tree) {j : Nat} {k : Nuc} {t : Rst}
    (hj : kids[j]? = some (k, t)) : childrenPos R (pos ++ [j]) = [pos ++ [j, 0]] := by
  unfold childrenPos
  rw [(at?_part h hj).1]
  simp [PTree.children, List.range_succ]

theorem labelAt_rel {R : PTree} {pos : List Nat} {name : List Char} {kids : List (Nuc × Rst)} (h : R.at? pos = some (Rst.rel name kids).tree) : labelAt R pos = .ok name := by
  unfold labelAt
  rw [h]
  rfl

theorem labelAt_part {R : PTree} {pos : List Nat} {name : List Char} {kids : List (Nuc × Rst)} (h : R.at? pos = some (Rst.rel name kids).tree) {j : Nat} {k : Nuc} {t : Rst}
    (hj : kids[j]? = some (k, t)) : labelAt R (pos ++ [j]) = .ok k.label := by
  unfold labelAt
  rw [(at?_part h hj).1]
  rfl

/-- the positions of a relation and its first parts -/
theorem treepositions_rel (name : List Char) (kids : List (Nuc × Rst)) : (Rst.rel name kids).tree.treepositions = [] :: PTree.treepositionsAll 0 (treeAll kids) := by
  rw [tree, PTree.treepositions]

theorem treepositionsAll_cons (i : Nat) (k : Nuc) (t : Rst) (r : List (Nuc × Rst)) :
    PTree.treepositionsAll i (treeAll ((k, t) :: r)) = [i] :: (t.tree.treepositions.map (fun p => i :: 0 :: p) ++ PTree.treepositionsAll (i + 1) (treeAll r)) := by
  rw [treeAll, PTree.treepositionsAll, treepositions_part]
  simp

theorem treepositions_head (t : PTree) : ∃ r, t.treepositions = [] :: r := by
  cases t with
  | leaf s => exact ⟨_, rfl⟩
  | none => exact ⟨_, rfl⟩
  | node a ks => exact ⟨_, by rw [PTree.treepositions]⟩

/-- the parts of a relation with a satellite -/
theorem cousins_sat {R : PTree} {pos : List Nat} {name : List Char} {kids : List (Nuc × Rst)} (h : R.at? pos = some (Rst.rel name kids).tree)
    (hshape : kids.map Prod.fst = [.N, .S] ∨ kids.map Prod.fst = [.S, .N]) {A B : List (List Nat)}
    (hP : R.treepositions = A ++ (Rst.rel name kids).tree.treepositions.map (fun p => pos ++ p) ++ B) {j : Nat} {t : Rst} (hj : kids[j]? = some (.S, t)) :
    ∃ c, cousinsPos R (pos ++ [j, 0]) = [c] ∧ nodeId R c = decimal (nucNumber (A.length + 2) kids) := by
  have hpp : parentPos (pos ++ [j, 0]) = some (pos ++ [j]) := by
    unfold parentPos
    rw [if_neg (by simp)]
    congr 1
    rw [show pos ++ [j, 0] = (pos ++ [j]) ++ [0] by simp, List.dropLast_concat]
  have hpp2 : parentPos (pos ++ [j]) = some pos := by
    unfold parentPos
    rw [if_neg (by simp), List.dropLast_concat]
  unfold cousinsPos siblingsPos
  rw [hpp]
  dsimp only
  rw [hpp2]
  dsimp only
  rw [childrenPos_rel h]
  rcases hshape with hs | hs
  · match kids, hs with
    | [(.N, a), (.S, b)], _ =>
      have hj1 : j = 1 := by
        match j, hj with
        | 1, _ => rfl
        | j + 2, hj => simp at hj
      subst hj1
      refine ⟨pos ++ [0, 0], ?_, ?_⟩
      · have : ((List.range 2).map (fun i => pos ++ [i])).filter (fun c => decide (c ≠ pos ++ [1])) = [pos ++ [0]] := by
          simp [List.range_succ]
        show (((List.range 2).map (fun i => pos ++ [i])).filter (fun c => decide (c ≠ pos ++ [1]))).flatMap _ = _
        rw [this]
        simp [childrenPos_part h (j := 0) (k := .N) (t := a) rfl]
      · obtain ⟨r, hr⟩ := treepositions_head a.tree
        rw [treepositions_rel, treepositionsAll_cons, hr] at hP
        have := nodeId_block (R := R) (A := A) (B := B) (X := [pos, pos ++ [0]]) (x := pos ++ [0, 0])
          (Y := r.map (fun p => pos ++ 0 :: 0 :: p) ++ (PTree.treepositionsAll (0 + 1) (treeAll [(.S, b)])).map (fun p => pos ++ p)) (by
            rw [hP]
            simp [Function.comp_def])
        rw [this]
        rfl
  · match kids, hs with
    | [(.S, b), (.N, a)], _ =>
      have hj1 : j = 0 := by
        match j, hj with
        | 0, _ => rfl
        | 1, hj => simp at hj
        | j + 2, hj => simp at hj
      subst hj1
      refine ⟨pos ++ [1, 0], ?_, ?_⟩
      · have : ((List.range 2).map (fun i => pos ++ [i])).filter (fun c => decide (c ≠ pos ++ [0])) = [pos ++ [1]] := by
          simp [List.range_succ]
        show (((List.range 2).map (fun i => pos ++ [i])).filter (fun c => decide (c ≠ pos ++ [0]))).flatMap _ = _
        rw [this]
        simp [childrenPos_part h (j := 1) (k := .N) (t := a) rfl]
      · obtain ⟨r, hr⟩ := treepositions_head a.tree
        rw [treepositions_rel, treepositionsAll_cons, treepositionsAll_cons, hr] at hP
        have := nodeId_block (R := R) (A := A) (B := B) (X := pos :: (pos ++ [0]) :: (b.tree.treepositions.map (fun p => pos ++ 0 :: 0 :: p) ++ [pos ++ [1]])) (x := pos ++ [1, 0])
          (Y := r.map (fun p => pos ++ 1 :: 0 :: p)) (by
            rw [hP]
            simp [Function.comp_def, treeAll, PTree.treepositionsAll])
        rw [this, nucNumber, nucNumber]
        congr 1
        simp [treepositions_length]
        omega

/-- the relation of a part and its parent -/
theorem relnameAndParent_part {R : PTree} {rels : Dict (List Char) (List Char)} {isRst : List Char → Bool} {pos : List Nat} {name : List Char} {kids : List (Nuc × Rst)}
    (h : R.at? pos = some (Rst.rel name kids).tree)
    (hshape : kids.map Prod.fst = [.N, .S] ∨ kids.map Prod.fst = [.S, .N] ∨ (2 ≤ kids.length ∧ ∀ k ∈ kids, k.1 = .N))
    (hrel : Dict.find rels name = some (if isRst name then ['r', 's', 't'] else ['m', 'u', 'l', 't', 'i', 'n', 'u', 'c'])) {A B : List (List Nat)}
    (hP : R.treepositions = A ++ (Rst.rel name kids).tree.treepositions.map (fun p => pos ++ p) ++ B) {j : Nat} {k : Nuc} {t : Rst} (hj : kids[j]? = some (k, t)) :
    relnameAndParent R rels (pos ++ [j, 0]) =
      .ok ((some (rs3Up (isRst name) name (A.length + 1) (nucNumber (A.length + 2) kids) k)).map (fun u => (u.1, decimal u.2))) := by
  have hpp : parentPos (pos ++ [j, 0]) = some (pos ++ [j]) := by
    unfold parentPos
    rw [if_neg (by simp)]
    congr 1
    rw [show pos ++ [j, 0] = (pos ++ [j]) ++ [0] by simp, List.dropLast_concat]
  have hpp2 : parentPos (pos ++ [j]) = some pos := by
    unfold parentPos
    rw [if_neg (by simp), List.dropLast_concat]
  have hid : nodeId R pos = decimal (A.length + 1) := by
    rw [treepositions_rel] at hP
    exact nodeId_block (R := R) (A := A) (B := B) (X := []) (x := pos) (Y := (PTree.treepositionsAll 0 (treeAll kids)).map (fun p => pos ++ p)) (by rw [hP]; simp)
  unfold relnameAndParent
  rw [hpp]
  dsimp only
  rw [hpp2]
  dsimp only
  rw [labelAt_part h hj, labelAt_rel h, except_bind_ok, except_bind_ok, hrel, hid]
  dsimp only
  cases hr : isRst name with
  | false => rfl
  | true =>
    cases k with
    | N => rfl
    | S =>
      have hs : kids.map Prod.fst = [.N, .S] ∨ kids.map Prod.fst = [.S, .N] := by
        rcases hshape with h | h | h
        · exact .inl h
        · exact .inr h
        · have := h.2 _ (List.mem_of_getElem? hj)
          cases this
      obtain ⟨c, hc, hn⟩ := cousins_sat h hs hP hj
      rw [hc]
      show Except.ok (some (name, nodeId R c)) = _
      rw [hn]
      rfl

theorem isNucLabel_nuc (k : Nuc) : isNucLabel k.label = true := by cases k <;> rfl

theorem mapE_childLabels (kids : List (Nuc × Rst)) : childrenLabels (.node ['x'] (treeAll kids)) = .ok (kids.map (fun k => k.1.label)) := by
  unfold childrenLabels
  rw [mapE_ok]
  show List.Forall₂ _ (treeAll kids) _
  induction kids with
  | nil => exact .nil
  | cons k ks ih => obtain ⟨n, t⟩ := k; exact .cons rfl ih

theorem groupType_rel {name : List Char} {kids : List (Nuc × Rst)}
    (hshape : kids.map Prod.fst = [.N, .S] ∨ kids.map Prod.fst = [.S, .N] ∨ (2 ≤ kids.length ∧ ∀ k ∈ kids, k.1 = .N)) :
    groupType (.node name (treeAll kids)) = .ok (if .S ∈ kids.map Prod.fst then ['s', 'p', 'a', 'n'] else ['m', 'u', 'l', 't', 'i', 'n', 'u', 'c']) := by
  unfold groupType
  have hl : childrenLabels (.node name (treeAll kids)) = .ok (kids.map (fun k => k.1.label)) := mapE_childLabels kids
  rw [hl, except_bind_ok]
  have e : kids.map (fun k => k.1.label) = (kids.map Prod.fst).map Nuc.label := by simp
  rcases hshape with h | h | h
  · rw [e, h]; rfl
  · rw [e, h]; rfl
  · have h1 : ¬ (.S ∈ kids.map Prod.fst) := by
      intro hm
      obtain ⟨k, hk, e⟩ := List.mem_map.1 hm
      rw [h.2 k hk] at e
      cases e
    rw [if_neg h1, if_neg, if_pos]
    · rfl
    · refine ⟨by rw [List.length_map]; omega, ?_⟩
      rw [List.all_eq_true]
      intro l hl
      obtain ⟨k, hk, rfl⟩ := List.mem_map.1 hl
      rw [h.2 k hk]
      rfl
    · rintro ⟨_, hm⟩
      obtain ⟨k, hk, e⟩ := List.mem_map.1 hm
      rw [h.2 k hk] at e
      cases e

/-- the relations of a structure are declared in `rels` -/
def Declares (rels : Dict (List Char) (List Char)) (isRst : List Char → Bool) (t : Rst) : Prop :=
  ∀ name kids, Part (.rel name kids) t → Dict.find rels name = some (if isRst name then ['r', 's', 't'] else ['m', 'u', 'l', 't', 'i', 'n', 'u', 'c'])

theorem Declares.kid {rels : Dict (List Char) (List Char)} {isRst : List Char → Bool} {name : List Char} {kids : List (Nuc × Rst)} (h : Declares rels isRst (.rel name kids))
    {k : Nuc × Rst} (hk : k ∈ kids) : Declares rels isRst k.2 := fun n ks hp => h n ks (.kid (by exact hk) hp)

/-- the elements emitted for a structure -/
theorem emit_tree {R : PTree} {rels : Dict (List Char) (List Char)} {isRst : List Char → Bool} (T : Rst) : Regular T → Declares rels isRst T →
    ∀ (pos : List Nat) (A B : List (List Nat)) (up : Option (List Char × Nat)), R.at? pos = some T.tree →
      R.treepositions = A ++ T.tree.treepositions.map (fun p => pos ++ p) ++ B →
      relnameAndParent R rels pos = .ok (up.map (fun u => (u.1, decimal u.2))) →
      ∃ es, mapE (emit R rels) (T.tree.treepositions.map (fun p => pos ++ p)) = .ok es ∧ es.flatten = T.rs3Elems isRst (A.length + 1) up := by
  induction T using Rst.ind with
  | h1 s =>
    intro _ _ pos A B up hat hP hrp
    have hid : nodeId R pos = decimal (A.length + 1) :=
      nodeId_block (R := R) (A := A) (B := B) (X := []) (x := pos) (Y := []) (by rw [hP]; simp [tree, PTree.treepositions])
    refine ⟨[[⟨decimal (A.length + 1), up.map (fun u => decimal u.2), up.map Prod.fst, .segment (if s = [] then none else some s)⟩]], ?_, rfl⟩
    rw [mapE_ok]
    show List.Forall₂ _ [pos ++ []] _
    refine .cons ?_ .nil
    rw [List.append_nil]
    unfold emit
    rw [hat]
    show (do let rp ← relnameAndParent R rels pos; _) = _
    rw [hrp, except_bind_ok, hid]
    cases up <;> rfl
  | h2 name kids ih =>
    intro hreg hdecl pos A B up hat hP hrp
    obtain ⟨hshape, hn0, hnN, hnS⟩ := hreg name kids (.refl _)
    have hrel := hdecl name kids (.refl _)
    have hid : nodeId R pos = decimal (A.length + 1) := by
      rw [treepositions_rel] at hP
      exact nodeId_block (R := R) (A := A) (B := B) (X := []) (x := pos) (Y := (PTree.treepositionsAll 0 (treeAll kids)).map (fun p => pos ++ p)) (by rw [hP]; simp)
    have hhead : emit R rels pos = .ok [⟨decimal (A.length + 1), up.map (fun u => decimal u.2), up.map Prod.fst,
        .group (some (if .S ∈ kids.map Prod.fst then ['s', 'p', 'a', 'n'] else ['m', 'u', 'l', 't', 'i', 'n', 'u', 'c']))⟩] := by
      unfold emit
      rw [hat]
      show (if name = [] then _ else if isNucLabel name then _ else _) = _
      rw [if_neg hn0, if_neg (by simp [isNucLabel, hnN, hnS])]
      rw [hrp, except_bind_ok, groupType_rel hshape, except_bind_ok, hid]
      cases up <;> rfl
    have key : ∀ (suf pre : List (Nuc × Rst)) (A' : List (List Nat)), kids = pre ++ suf →
        R.treepositions = A' ++ (PTree.treepositionsAll pre.length (treeAll suf)).map (fun p => pos ++ p) ++ B →
        ∃ es, mapE (emit R rels) ((PTree.treepositionsAll pre.length (treeAll suf)).map (fun p => pos ++ p)) = .ok es ∧
          es.flatten = rs3Parts isRst name (A.length + 1) (nucNumber (A.length + 2) kids) (A'.length + 1) suf := by
      intro suf
      induction suf with
      | nil =>
        intro pre A' _ _
        exact ⟨[], rfl, rfl⟩
      | cons k suf ih2 =>
        obtain ⟨k, t⟩ := k
        intro pre A' hkids hA'
        have hj : kids[pre.length]? = some (k, t) := by rw [hkids]; simp
        have hmem : (k, t) ∈ kids := by rw [hkids]; simp
        rw [treepositionsAll_cons] at hA' ⊢
        have hpart := relnameAndParent_part (isRst := isRst) hat hshape hrel hP hj
        obtain ⟨es1, h1, h1'⟩ := ih (k, t) hmem (hreg.kid hmem) (hdecl.kid hmem) (pos ++ [pre.length, 0]) (A' ++ [pos ++ [pre.length]])
          ((PTree.treepositionsAll (pre.length + 1) (treeAll suf)).map (fun p => pos ++ p) ++ B) _ (at?_part hat hj).2 (by rw [hA']; simp [Function.comp_def]) hpart
        obtain ⟨es2, h2, h2'⟩ := ih2 (pre ++ [(k, t)]) (A' ++ (pos ++ [pre.length]) :: t.tree.treepositions.map (fun p => pos ++ pre.length :: 0 :: p)) (by rw [hkids]; simp)
          (by rw [hA']; simp [Function.comp_def])
        have h0 : emit R rels (pos ++ [pre.length]) = .ok [] := by
          unfold emit
          rw [(at?_part hat hj).1]
          show (if k.label = [] then _ else if isNucLabel k.label then _ else _) = _
          rw [if_neg (by cases k <;> simp [Nuc.label]), if_pos (isNucLabel_nuc k)]
        refine ⟨[] :: (es1 ++ es2), ?_, ?_⟩
        · rw [List.map_cons, List.map_append, List.map_map]
          have e1 : t.tree.treepositions.map ((fun p => pos ++ p) ∘ fun p => pre.length :: 0 :: p) = t.tree.treepositions.map (fun p => pos ++ [pre.length, 0] ++ p) := by
            simp [Function.comp_def]
          rw [e1]
          have := mapE_append_ok h1 (show mapE (emit R rels) ((PTree.treepositionsAll (pre.length + 1) (treeAll suf)).map (fun p => pos ++ p)) = .ok es2 by
            simpa using h2)
          rw [mapE, h0, except_bind_ok, this]
          rfl
        · rw [List.flatten_cons, List.nil_append, List.flatten_append, h1', h2']
          conv => rhs; rw [rs3Parts]
          have e2 : (A' ++ (pos ++ [pre.length]) :: t.tree.treepositions.map (fun p => pos ++ pre.length :: 0 :: p)).length + 1 = A'.length + 1 + 1 + t.nodes := by
            simp [treepositions_length]
            omega
          have e3 : (A' ++ [pos ++ [pre.length]]).length + 1 = A'.length + 1 + 1 := by simp
          rw [e2, e3]
    obtain ⟨es, h1, h2⟩ := key kids [] (A ++ [pos]) rfl (by rw [hP, treepositions_rel]; simp)
    refine ⟨[⟨decimal (A.length + 1), up.map (fun u => decimal u.2), up.map Prod.fst,
        .group (some (if .S ∈ kids.map Prod.fst then ['s', 'p', 'a', 'n'] else ['m', 'u', 'l', 't', 'i', 'n', 'u', 'c']))⟩] :: es, ?_, ?_⟩
    · rw [treepositions_rel, List.map_cons, List.append_nil, mapE, hhead, except_bind_ok]
      have h1' : mapE (emit R rels) ((PTree.treepositionsAll 0 (treeAll kids)).map (fun p => pos ++ p)) = .ok es := h1
      rw [h1']
      rfl
    · rw [List.flatten_cons, h2, rs3Elems]
      simp

/-! ### Relations -/

/-- the type under which a relation is declared -/
def typeName (nucs : List Nuc) : List Char := if .S ∈ nucs then ['r', 's', 't'] else ['m', 'u', 'l', 't', 'i', 'n', 'u', 'c']

theorem labelsE_parts (kids : List (Nuc × Rst)) : labelsE (treeAll kids) = .ok (kids.map (fun k => k.1.label)) := by
  induction kids with
  | nil => rfl
  | cons k ks ih => obtain ⟨n, t⟩ := k; rw [treeAll, labelsE, ih]; rfl

theorem relationsAll_eq (ts : List (Nuc × Rst)) : relationsAll ts = ts.flatMap (fun k => relations k.2) := by
  induction ts with
  | nil => rfl
  | cons t ts ih => obtain ⟨n, t⟩ := t; rw [relationsAll, ih]; rfl

theorem extractRelations_tree (T : Rst) : Regular T → ∀ d, extractRelations d T.tree = .ok (T.relations.foldl (fun d r => Dict.put d r.1 (typeName r.2)) d) := by
  induction T using Rst.ind with
  | h1 s => intro _ d; rfl
  | h2 name kids ih =>
    intro hreg d
    obtain ⟨_, hn0, hnN, hnS⟩ := hreg name kids (.refl _)
    have key : ∀ (ks : List (Nuc × Rst)), (∀ k ∈ ks, k ∈ kids) → ∀ d,
        extractRelationsAll d (treeAll ks) = .ok ((relationsAll ks).foldl (fun d r => Dict.put d r.1 (typeName r.2)) d) := by
      intro ks
      induction ks with
      | nil => intro _ d; rfl
      | cons k ks ih2 =>
        obtain ⟨k, t⟩ := k
        intro hsub d
        have hk := hsub (k, t) (by simp)
        have h1 : extractRelations d (.node k.label [t.tree]) = .ok (t.relations.foldl (fun d r => Dict.put d r.1 (typeName r.2)) d) := by
          rw [extractRelations, if_neg (by cases k <;> simp [Nuc.label]), if_pos (isNucLabel_nuc k), extractRelationsAll, ih (k, t) hk (hreg.kid hk) d]
          rfl
        rw [treeAll, extractRelationsAll, h1, relationsAll, List.foldl_append]
        exact ih2 (fun k hk => hsub k (List.mem_cons_of_mem _ hk)) _
    have hall : (kids.map (fun k => k.1.label)).all isNucLabel = true := by
      rw [List.all_eq_true]
      intro l hl
      obtain ⟨k, _, rfl⟩ := List.mem_map.1 hl
      exact isNucLabel_nuc _
    have hS : (['S'] ∈ kids.map (fun k => k.1.label)) ↔ .S ∈ kids.map Prod.fst := by
      simp only [List.mem_map]
      constructor
      · rintro ⟨k, hk, e⟩
        refine ⟨k, hk, ?_⟩
        obtain ⟨n, t⟩ := k
        cases n
        · cases e
        · rfl
      · rintro ⟨k, hk, e⟩
        exact ⟨k, hk, by rw [e]; rfl⟩
    have hlab := labelsE_parts kids
    rw [tree, extractRelations, if_neg hn0, if_neg (by simp [isNucLabel, hnN, hnS]), hlab]
    simp only [hall, if_true]
    rw [key kids (fun k hk => hk), relations, List.foldl_cons]
    simp only [typeName, hS]

/-- the last declaration counts -/
theorem find_foldl_put {α : Type} (f : α → List Char × List Char) (rs : List α) : ∀ (d : Dict (List Char) (List Char)) (n : List Char),
    Dict.find (rs.foldl (fun d r => Dict.put d (f r).1 (f r).2) d) n = ((rs.reverse.find? (fun r => decide ((f r).1 = n))).map (fun r => (f r).2)).or (Dict.find d n) := by
  induction rs with
  | nil => intro d n; rfl
  | cons r rs ih =>
    intro d n
    rw [List.foldl_cons, ih, Dict.find_put, List.reverse_cons, List.find?_append]
    cases h : rs.reverse.find? (fun r => decide ((f r).1 = n)) with
    | some x => rfl
    | none =>
      by_cases hr : (f r).1 = n
      · simp [hr]
      · simp [hr]

theorem relations_mem {T : Rst} {name : List Char} {nucs : List Nuc} : (name, nucs) ∈ T.relations ↔ ∃ kids, Part (.rel name kids) T ∧ nucs = kids.map Prod.fst := by
  induction T using Rst.ind with
  | h1 s =>
    simp only [relations, List.not_mem_nil, false_iff]
    rintro ⟨kids, h, _⟩
    cases h
  | h2 a kids ih =>
    rw [relations, relationsAll_eq, List.mem_cons, List.mem_flatMap]
    constructor
    · rintro (h | ⟨k, hk, h⟩)
      · cases h; exact ⟨kids, .refl _, rfl⟩
      · obtain ⟨ks, hp, e⟩ := (ih k hk).1 h
        exact ⟨ks, .kid (by exact hk) hp, e⟩
    · rintro ⟨ks, hp, e⟩
      cases hp with
      | refl => exact .inl (by rw [e])
      | kid hk hp => exact .inr ⟨_, hk, (ih _ hk).2 ⟨ks, hp, e⟩⟩

end Dg
