import Verif.Lemmas.Rs3Write
import Verif.Lemmas.Rs3
import Batteries.Lean.Except

/-!
**C32** RS3 writer emits unique IDs, valid parents and segments in text order: write_rs3 gives each segment/group a distinct ID, each parent attribute refers to an emitted
element, and the segments' texts in file order are the tree's EDUs in text order.

Trees are the trees of the rhetorical structures of Spec/Rst.lean in which every relation joins a nucleus and a satellite or several nuclei (`Rst.Regular`).  The theorems hold for
every value of the class attribute `default_relations`, i.e. after any sequence of earlier writes.
-/

namespace Dg
open Rst Rs3Writer
open DG (mapE mapE_ok mapE_total)

/-- the relation types the writer uses: those of the tree override the defaults -/
def declaredTypes (defaults : Dict (List Char) (List Char)) (T : Rst) : Dict (List Char) (List Char) :=
  (T.relations.foldl (fun d r => Dict.put d r.1 (typeName r.2)) []).foldl (fun d r => Dict.put d r.1 r.2) defaults

/-- is the relation declared as a relation of a nucleus and a satellite? -/
def declaredRst (defaults : Dict (List Char) (List Char)) (T : Rst) (name : List Char) : Bool :=
  decide (Dict.find (declaredTypes defaults T) name = some ['r', 's', 't'])

/-- find in a dict that is the update of another one -/
theorem find_update (d e : Dict (List Char) (List Char)) (hnd : (Dict.keys e).Nodup) (n : List Char) :
    Dict.find (e.foldl (fun d r => Dict.put d r.1 r.2) d) n = (Dict.find e n).or (Dict.find d n) := by
  induction e generalizing d with
  | nil => rfl
  | cons p e ih =>
    obtain ⟨k, v⟩ := p
    have hk : k ∉ Dict.keys e ∧ (Dict.keys e).Nodup := by simpa [Dict.keys] using hnd
    rw [List.foldl_cons, ih _ hk.2, Dict.find_put, Dict.find]
    by_cases h : k = n
    · subst h
      rw [if_pos rfl, if_pos rfl, (Dict.find_eq_none_iff e k).2 hk.1]
      rfl
    · rw [if_neg h, if_neg h]

theorem nodup_foldl_put {α : Type} (f : α → List Char × List Char) (rs : List α) : ∀ (d : Dict (List Char) (List Char)), (Dict.keys d).Nodup →
    (Dict.keys (rs.foldl (fun d r => Dict.put d (f r).1 (f r).2) d)).Nodup := by
  induction rs with
  | nil => intro d h; exact h
  | cons r rs ih => intro d h; exact ih _ (Dict.nodup_put h _ _)

theorem find_declaredTypes (defaults : Dict (List Char) (List Char)) (T : Rst) (n : List Char) : Dict.find (declaredTypes defaults T) n =
    ((T.relations.reverse.find? (fun r => decide (r.1 = n))).map (fun r => typeName r.2)).or (Dict.find defaults n) := by
  unfold declaredTypes
  rw [find_update _ _ (nodup_foldl_put (fun (r : List Char × List Nuc) => (r.1, typeName r.2)) T.relations [] (by simp [Dict.keys]))]
  rw [find_foldl_put (fun (r : List Char × List Nuc) => (r.1, typeName r.2)) T.relations [] n]
  simp [Dict.find]

/-- every relation of the tree is declared, with one of its types -/
theorem declared_of_part {defaults : Dict (List Char) (List Char)} {T : Rst} {name : List Char} {kids : List (Nuc × Rst)} (h : Part (.rel name kids) T) :
    ∃ kids', Part (.rel name kids') T ∧ Dict.find (declaredTypes defaults T) name = some (typeName (kids'.map Prod.fst)) := by
  rw [find_declaredTypes]
  cases hf : T.relations.reverse.find? (fun r => decide (r.1 = name)) with
  | none =>
    have := List.find?_eq_none.1 hf (name, kids.map Prod.fst) (List.mem_reverse.2 (relations_mem.2 ⟨kids, h, rfl⟩))
    simp at this
  | some r =>
    obtain ⟨n, nucs⟩ := r
    have h1 := List.find?_some hf
    have h2 := List.mem_of_find?_eq_some hf
    simp at h1
    subst h1
    obtain ⟨ks, hp, rfl⟩ := relations_mem.1 (List.mem_reverse.1 h2)
    exact ⟨ks, hp, rfl⟩

theorem declares_declared (defaults : Dict (List Char) (List Char)) (T : Rst) : Declares (declaredTypes defaults T) (declaredRst defaults T) T := by
  intro name kids h
  obtain ⟨kids', hp, hf⟩ := declared_of_part (defaults := defaults) h
  rw [hf]
  congr 1
  unfold declaredRst
  rw [hf]
  unfold typeName
  split <;> simp

theorem extractRelations_doc (T : Rst) (h : Regular T) : extractRelations [] T.docTree = .ok (T.relations.foldl (fun d r => Dict.put d r.1 (typeName r.2)) []) := by
  cases T with
  | edu s => rfl
  | rel name kids => exact extractRelations_tree _ h []

/-- **C32** (elements) the elements written for a structure: an ID for every EDU and relation (its number in preorder), segments before groups; the nucleus of a relation declared as
rst is a `span` below the group of the relation, its satellite is attached to the nucleus, and the parts of other relations are below the group of the relation -/
theorem c32_elements {defaults : Dict (List Char) (List Char)} {T : Rst} (h : Regular T) :
    ∃ doc d', writeRs3 defaults T.docTree = .ok (doc, d') ∧
      doc.elems = (T.rs3Doc (declaredRst defaults T)).filter isSegment ++ (T.rs3Doc (declaredRst defaults T)).filter (fun x => !isSegment x) ∧
      (∀ name ty, (name, ty) ∈ doc.rels ↔ name ∈ Dict.keys (declaredTypes defaults T) ∧ ty = Dict.find (declaredTypes defaults T) name) ∧
      (doc.rels.map Prod.fst).Perm (Dict.keys (declaredTypes defaults T)) ∧ d' = declaredTypes defaults T := by
  have hmap : ∃ es, mapE (emit T.docTree (declaredTypes defaults T)) (pySorted posLe T.docTree.treepositions) = .ok es ∧ es.flatten = T.rs3Doc (declaredRst defaults T) := by
    rw [pySorted_treepositions]
    cases T with
    | edu s =>
      refine ⟨[[], (Rst.edu s).rs3Doc (declaredRst defaults (.edu s))], ?_, by simp⟩
      rw [mapE_ok]
      refine .cons ?_ (.cons ?_ .nil)
      · rfl
      · rfl
    | rel name kids =>
      obtain ⟨es, h1, h2⟩ := emit_tree (R := (Rst.rel name kids).tree) (.rel name kids) h (declares_declared defaults _) [] [] [] none rfl (by simp) rfl
      refine ⟨es, ?_, h2⟩
      show mapE _ (Rst.rel name kids).tree.treepositions = _
      rw [show (Rst.rel name kids).tree.treepositions = (Rst.rel name kids).tree.treepositions.map (fun p => [] ++ p) by simp]
      exact h1
  obtain ⟨es, h1, h2⟩ := hmap
  refine ⟨⟨(pySorted nameLe (Dict.keys (declaredTypes defaults T))).map (fun n => (n, Dict.find (declaredTypes defaults T) n)),
      es.flatten.filter isSegment ++ es.flatten.filter (fun x => !isSegment x)⟩, declaredTypes defaults T, ?_, ?_, ?_, ?_, rfl⟩
  · unfold writeRs3
    rw [extractRelations_doc T h, except_bind_ok]
    show (do let elems ← mapE (emit T.docTree (declaredTypes defaults T)) (pySorted posLe T.docTree.treepositions); _) = _
    rw [h1, except_bind_ok]
    rfl
  · rw [h2]
  · intro name ty
    simp only [List.mem_map, mem_pySorted, Prod.mk.injEq]
    constructor
    · rintro ⟨n, hn, rfl, rfl⟩; exact ⟨hn, rfl⟩
    · rintro ⟨hn, rfl⟩; exact ⟨name, hn, rfl, rfl⟩
  · simp only [List.map_map]
    have e : (pySorted nameLe (Dict.keys (declaredTypes defaults T))).map (Prod.fst ∘ fun n => (n, Dict.find (declaredTypes defaults T) n)) =
        pySorted nameLe (Dict.keys (declaredTypes defaults T)) := by simp [Function.comp_def]
    rw [e]
    exact pySorted_perm _

/-! ### The elements of a structure -/

/-- the numbers of the elements increase -/
theorem rs3Elems_ids (isRst : List Char → Bool) (T : Rst) : ∀ (n : Nat) (up : Option (List Char × Nat)), ∃ ms : List Nat,
    (T.rs3Elems isRst n up).map Rs3Xml.id = ms.map decimal ∧ ms.Pairwise (· < ·) ∧ (∀ m ∈ ms, n ≤ m ∧ m < n + T.nodes) ∧ n ∈ ms := by
  induction T using Rst.ind with
  | h1 s => intro n up; exact ⟨[n], rfl, by simp, by simp [nodes], by simp⟩
  | h2 name kids ih =>
    intro n up
    have key : ∀ (ks : List (Nuc × Rst)), (∀ k ∈ ks, k ∈ kids) → ∀ (nuc m : Nat), ∃ ms : List Nat,
        (rs3Parts isRst name n nuc m ks).map Rs3Xml.id = ms.map decimal ∧ ms.Pairwise (· < ·) ∧ ∀ x ∈ ms, m < x ∧ x < m + nodesAll ks := by
      intro ks
      induction ks with
      | nil => intro _ nuc m; exact ⟨[], rfl, .nil, by simp⟩
      | cons k ks ih2 =>
        obtain ⟨k, t⟩ := k
        intro hsub nuc m
        obtain ⟨a, h1, h2, h3, _⟩ := ih (k, t) (hsub _ (by simp)) (m + 1) (some (rs3Up (isRst name) name n nuc k))
        obtain ⟨b, h4, h5, h6⟩ := ih2 (fun k hk => hsub k (List.mem_cons_of_mem _ hk)) nuc (m + 1 + t.nodes)
        refine ⟨a ++ b, ?_, ?_, ?_⟩
        · rw [rs3Parts, List.map_append, List.map_append, h1, h4]
        · rw [List.pairwise_append]
          refine ⟨h2, h5, ?_⟩
          intro x hx y hy
          have h3 := h3 x hx
          have h6 := h6 y hy
          dsimp only at h3
          omega
        · intro x hx
          rw [nodesAll]
          rcases List.mem_append.1 hx with hx | hx
          · have := h3 x hx; dsimp only at this; omega
          · have := h6 x hx; omega
    obtain ⟨ms, h1, h2, h3⟩ := key kids (fun k hk => hk) (nucNumber (n + 1) kids) (n + 1)
    refine ⟨n :: ms, ?_, ?_, ?_, by simp⟩
    · rw [rs3Elems, List.map_cons, List.map_cons, h1]
    · rw [List.pairwise_cons]
      exact ⟨fun x hx => by have := h3 x hx; omega, h2⟩
    · intro m hm
      rw [nodes]
      rcases List.mem_cons.1 hm with rfl | hm
      · omega
      · have := h3 m hm; omega

theorem rs3Elems_nodup (isRst : List Char → Bool) (T : Rst) (n : Nat) (up : Option (List Char × Nat)) : ((T.rs3Elems isRst n up).map Rs3Xml.id).Nodup := by
  obtain ⟨ms, h, hs, _⟩ := rs3Elems_ids isRst T n up
  rw [h]
  exact (hs.imp (fun h => by omega : ∀ {a b : Nat}, a < b → a ≠ b)).map decimal (fun a b hab e => hab (decimal_injective e))

/-- the number of a nucleus is the number of one of the parts -/
theorem nucNumber_mem (isRst : List Char → Bool) (name : List Char) (n nuc : Nat) (ks : List (Nuc × Rst)) : ∀ (m : Nat), (∃ k ∈ ks, k.1 = .N) →
    decimal (nucNumber m ks) ∈ (rs3Parts isRst name n nuc m ks).map Rs3Xml.id := by
  induction ks with
  | nil => intro m h; simp at h
  | cons k ks ih =>
    obtain ⟨k, t⟩ := k
    intro m h
    rw [rs3Parts, List.map_append, List.mem_append]
    cases k with
    | N =>
      left
      obtain ⟨ms, h1, _, _, h4⟩ := rs3Elems_ids isRst t (m + 1) (some (rs3Up (isRst name) name n nuc .N))
      rw [h1]
      exact List.mem_map_of_mem h4
    | S =>
      right
      exact ih _ (by simpa using h)

/-- the parent of an element is the parent of the whole structure or an element; only the first element has the former -/
theorem rs3Elems_parents {isRst : List Char → Bool} (T : Rst) : (∀ name kids, Part (.rel name kids) T → ∃ k ∈ kids, k.1 = .N) → ∀ (n : Nat) (up : Option (List Char × Nat)),
    ∃ x xs, T.rs3Elems isRst n up = x :: xs ∧ x.id = decimal n ∧ x.parent = up.map (fun u => decimal u.2) ∧ x.relname = up.map Prod.fst ∧
      ∀ y ∈ xs, ∃ i, y.parent = some i ∧ y.relname ≠ none ∧ i ∈ (T.rs3Elems isRst n up).map Rs3Xml.id := by
  induction T using Rst.ind with
  | h1 s => intro _ n up; exact ⟨_, [], rfl, rfl, rfl, rfl, by simp⟩
  | h2 name kids ih =>
    intro hN n up
    have hnuc : decimal (nucNumber (n + 1) kids) ∈ ((Rst.rel name kids).rs3Elems isRst n up).map Rs3Xml.id := by
      rw [rs3Elems, List.map_cons]
      exact List.mem_cons_of_mem _ (nucNumber_mem _ _ _ _ _ _ (hN name kids (.refl _)))
    have hn : decimal n ∈ ((Rst.rel name kids).rs3Elems isRst n up).map Rs3Xml.id := by rw [rs3Elems, List.map_cons]; exact List.mem_cons_self
    have key : ∀ (ks : List (Nuc × Rst)), (∀ k ∈ ks, k ∈ kids) → ∀ (m : Nat) (y), y ∈ rs3Parts isRst name n (nucNumber (n + 1) kids) m ks →
        ∃ i, y.parent = some i ∧ y.relname ≠ none ∧ (i = decimal n ∨ i = decimal (nucNumber (n + 1) kids) ∨
          i ∈ (rs3Parts isRst name n (nucNumber (n + 1) kids) m ks).map Rs3Xml.id) := by
      intro ks
      induction ks with
      | nil => intro _ m y hy; simp [rs3Parts] at hy
      | cons k ks ih2 =>
        obtain ⟨k, t⟩ := k
        intro hsub m y hy
        rw [rs3Parts, List.mem_append] at hy
        rcases hy with hy | hy
        · obtain ⟨x, xs, h1, h2, h3, h3', h4⟩ := ih (k, t) (hsub _ (by simp)) (fun a b hp => hN a b (.kid (hsub (k, t) (by simp)) hp)) (m + 1)
            (some (rs3Up (isRst name) name n (nucNumber (n + 1) kids) k))
          dsimp only at h1 h4
          rw [h1] at hy
          rcases List.mem_cons.1 hy with rfl | hy
          · refine ⟨_, h3, by rw [h3']; simp, ?_⟩
            unfold rs3Up
            split
            · cases k
              · exact .inl rfl
              · exact .inr (.inl rfl)
            · exact .inl rfl
          · obtain ⟨i, h5, h5', h6⟩ := h4 y hy
            exact ⟨i, h5, h5', .inr (.inr (by rw [rs3Parts, List.map_append]; exact List.mem_append_left _ h6))⟩
        · obtain ⟨i, h5, h5', h6⟩ := ih2 (fun k hk => hsub k (List.mem_cons_of_mem _ hk)) _ y hy
          refine ⟨i, h5, h5', ?_⟩
          rcases h6 with h | h | h
          · exact .inl h
          · exact .inr (.inl h)
          · exact .inr (.inr (by rw [rs3Parts, List.map_append]; exact List.mem_append_right _ h))
    refine ⟨_, _, by rw [rs3Elems], rfl, rfl, rfl, ?_⟩
    intro y hy
    obtain ⟨i, h1, h1', h2⟩ := key kids (fun k hk => hk) _ y hy
    refine ⟨i, h1, h1', ?_⟩
    rcases h2 with rfl | rfl | h
    · exact hn
    · exact hnuc
    · rw [rs3Elems, List.map_cons]
      exact List.mem_cons_of_mem _ h

/-- the text of a segment -/
def Rs3Xml.text? (x : Rs3Xml) : Option (List Char) :=
  match x.kind with
  | .segment (some s) => some s
  | .segment none => some []
  | .group _ => none

theorem rs3Elems_texts (isRst : List Char → Bool) (T : Rst) : ∀ (n : Nat) (up : Option (List Char × Nat)), (T.rs3Elems isRst n up).filterMap Rs3Xml.text? = T.edus := by
  induction T using Rst.ind with
  | h1 s =>
    intro n up
    by_cases h : s = []
    · subst h; rfl
    · simp [rs3Elems, Rs3Xml.text?, h, edus]
  | h2 name kids ih =>
    intro n up
    have key : ∀ (ks : List (Nuc × Rst)), (∀ k ∈ ks, k ∈ kids) → ∀ (nuc m : Nat), (rs3Parts isRst name n nuc m ks).filterMap Rs3Xml.text? = edusAll ks := by
      intro ks
      induction ks with
      | nil => intro _ nuc m; rfl
      | cons k ks ih2 =>
        obtain ⟨k, t⟩ := k
        intro hsub nuc m
        rw [rs3Parts, List.filterMap_append, ih2 (fun k hk => hsub k (List.mem_cons_of_mem _ hk)), edusAll]
        have := ih (k, t) (hsub _ (by simp)) (m + 1) (some (rs3Up (isRst name) name n nuc k))
        dsimp only at this
        rw [this]
    rw [rs3Elems, List.filterMap_cons_none (by rfl), key kids (fun k hk => hk), edus]

/-- the number of relations of a structure is the number of groups -/
theorem rs3Elems_groups (isRst : List Char → Bool) (T : Rst) : ∀ (n : Nat) (up : Option (List Char × Nat)),
    ((T.rs3Elems isRst n up).filter (fun x => !isSegment x)).length = T.relations.length := by
  induction T using Rst.ind with
  | h1 s => intro n up; rfl
  | h2 name kids ih =>
    intro n up
    have key : ∀ (ks : List (Nuc × Rst)), (∀ k ∈ ks, k ∈ kids) → ∀ (nuc m : Nat),
        ((rs3Parts isRst name n nuc m ks).filter (fun x => !isSegment x)).length = (relationsAll ks).length := by
      intro ks
      induction ks with
      | nil => intro _ nuc m; rfl
      | cons k ks ih2 =>
        obtain ⟨k, t⟩ := k
        intro hsub nuc m
        rw [rs3Parts, List.filter_append, List.length_append, ih2 (fun k hk => hsub k (List.mem_cons_of_mem _ hk)), relationsAll, List.length_append]
        have := ih (k, t) (hsub _ (by simp)) (m + 1) (some (rs3Up (isRst name) name n nuc k))
        dsimp only at this
        rw [this]
    rw [rs3Elems, List.filter_cons_of_pos (by rfl), List.length_cons, key kids (fun k hk => hk), relations, List.length_cons]

theorem Rst.Regular.nucleus {T : Rst} (h : Regular T) (name : List Char) (kids : List (Nuc × Rst)) (hp : Part (.rel name kids) T) : ∃ k ∈ kids, k.1 = .N := by
  obtain ⟨hs, _⟩ := h name kids hp
  rcases hs with hs | hs | hs
  · have : Nuc.N ∈ kids.map Prod.fst := by rw [hs]; simp
    simpa using this
  · have : Nuc.N ∈ kids.map Prod.fst := by rw [hs]; simp
    simpa using this
  · match kids, hs with
    | k :: ks, hs => exact ⟨k, by simp, hs.2 k (by simp)⟩

theorem filterMap_text_seg (xs : List Rs3Xml) : (xs.filter isSegment ++ xs.filter (fun x => !isSegment x)).filterMap Rs3Xml.text? = xs.filterMap Rs3Xml.text? := by
  have hg : ∀ x : Rs3Xml, (!isSegment x) = true → x.text? = none := by
    intro x h
    unfold isSegment at h
    unfold Rs3Xml.text?
    split <;> simp_all
  have h2 : (xs.filter (fun x => !isSegment x)).filterMap Rs3Xml.text? = [] := by
    rw [List.filterMap_eq_nil_iff]
    intro x hx
    exact hg x (List.mem_filter.1 hx).2
  rw [List.filterMap_append, h2, List.append_nil]
  induction xs with
  | nil => rfl
  | cons x xs ih =>
    have ih := ih (by
      rw [List.filterMap_eq_nil_iff]
      intro x hx
      exact hg x (List.mem_filter.1 hx).2)
    by_cases hx : isSegment x = true
    · rw [List.filter_cons_of_pos hx, List.filterMap_cons, List.filterMap_cons, ih]
    · rw [List.filter_cons_of_neg hx, ih, List.filterMap_cons_none (hg x (by simpa using hx))]

/-- **C32** `write_rs3` of the tree of any regular structure succeeds.  The IDs of the segments and groups are pairwise distinct, there is exactly one root (an element without
`parent`), every `parent` is the ID of an emitted element and comes with a relation name, all segments precede all groups, the texts of the segments in file order are the EDUs in text
order, and there is one group per relation. -/
theorem c32_file {defaults : Dict (List Char) (List Char)} {T : Rst} (h : Regular T) :
    ∃ doc d', writeRs3 defaults T.docTree = .ok (doc, d') ∧
      (doc.elems.map Rs3Xml.id).Nodup ∧
      (∀ x ∈ doc.elems, ∀ i, x.parent = some i → x.relname ≠ none ∧ ∃ y ∈ doc.elems, y.id = i) ∧
      (∃ r ∈ doc.elems, r.parent = none ∧ ∀ x ∈ doc.elems, x.parent = none → x = r) ∧
      doc.elems.filterMap Rs3Xml.text? = T.edus ∧
      (doc.elems.filter (fun x => !isSegment x)).length = T.relations.length ∧
      doc.elems = doc.elems.filter isSegment ++ doc.elems.filter (fun x => !isSegment x) := by
  obtain ⟨doc, d', hw, he, _⟩ := c32_elements (defaults := defaults) h
  refine ⟨doc, d', hw, ?_⟩
  obtain ⟨n, hn⟩ : ∃ n, T.rs3Doc (declaredRst defaults T) = T.rs3Elems (declaredRst defaults T) n none := by
    cases T with
    | edu s => exact ⟨2, rfl⟩
    | rel a ks => exact ⟨1, rfl⟩
  rw [hn] at he
  generalize declaredRst defaults T = isRst at he
  have hperm : doc.elems.Perm (T.rs3Elems isRst n none) := he ▸ List.filter_append_perm _ _
  obtain ⟨x, xs, hx, hid, hpar, hrel, hxs⟩ := rs3Elems_parents (isRst := isRst) T h.nucleus n none
  refine ⟨?_, ?_, ?_, ?_, ?_, ?_⟩
  · exact (hperm.map _).nodup_iff.2 (rs3Elems_nodup isRst T n none)
  · intro y hy i hi
    have hy := hperm.mem_iff.1 hy
    rw [hx] at hy
    rcases List.mem_cons.1 hy with rfl | hy
    · rw [hpar] at hi; cases hi
    · obtain ⟨j, h1, h1', h2⟩ := hxs y hy
      rw [h1] at hi
      cases hi
      refine ⟨h1', ?_⟩
      obtain ⟨z, hz, rfl⟩ := List.mem_map.1 h2
      exact ⟨z, hperm.mem_iff.2 hz, rfl⟩
  · refine ⟨x, hperm.mem_iff.2 (by rw [hx]; simp), hpar, ?_⟩
    intro y hy hp
    have hy := hperm.mem_iff.1 hy
    rw [hx] at hy
    rcases List.mem_cons.1 hy with rfl | hy
    · rfl
    · obtain ⟨j, h1, _⟩ := hxs y hy
      rw [h1] at hp
      cases hp
  · rw [he, filterMap_text_seg, rs3Elems_texts]
  · rw [(hperm.filter _).length_eq, rs3Elems_groups]
  · rw [he]
    simp [List.filter_append, List.filter_filter]

theorem regular_edu (s : List Char) : Regular (.edu s) := by
  intro name kids h
  cases h

theorem regular_rel {name : List Char} {kids : List (Nuc × Rst)}
    (h : (kids.map Prod.fst = [.N, .S] ∨ kids.map Prod.fst = [.S, .N] ∨ (2 ≤ kids.length ∧ ∀ k ∈ kids, k.1 = .N)) ∧ name ≠ [] ∧ name ≠ ['N'] ∧ name ≠ ['S'])
    (hk : ∀ k ∈ kids, Regular k.2) : Regular (.rel name kids) := by
  intro n ks hp
  cases hp with
  | refl => exact h
  | kid hm hp => exact hk _ hm n ks hp

/-- non-vacuity: the structure of the next example is regular -/
example : Regular (.rel ['j'] [(.N, .rel ['e'] [(.S, .edu ['a']), (.N, .edu ['b'])]), (.N, .edu ['c']), (.N, .edu ['d'])]) := by
  refine regular_rel (by simp) ?_
  simp only [List.forall_mem_cons]
  refine ⟨regular_rel (by simp) ?_, regular_edu _, regular_edu _, by simp⟩
  simp only [List.forall_mem_cons]
  exact ⟨regular_edu _, regular_edu _, by simp⟩

set_option synthInstance.maxSize 1000 in
/-- non-vacuity: a nucleus with a satellite before it, in a multinuclear relation with two further EDUs -/
example : (writeRs3 [(['e'], ['r', 's', 't'])]
      (Rst.rel ['j'] [(.N, .rel ['e'] [(.S, .edu ['a']), (.N, .edu ['b'])]), (.N, .edu ['c']), (.N, .edu ['d'])]).docTree).map
        (fun r => (r.1.elems.map (fun x => (x.id, x.parent, x.relname)), r.1.rels)) =
    .ok ([(['5'], some ['7'], some ['e']), (['7'], some ['3'], some ['s', 'p', 'a', 'n']), (['9'], some ['1'], some ['j']), (['1', '1'], some ['1'], some ['j']),
       (['1'], none, none), (['3'], some ['1'], some ['j'])], [(['e'], some ['r', 's', 't']), (['j'], some ['m', 'u', 'l', 't', 'i', 'n', 'u', 'c'])]) := by decide +kernel

/-- **C32** (relations) every relation of the tree is declared in the header exactly once, with the type of its last occurrence in the tree; the relations that do not occur in the
tree keep the types they had in the class attribute (defaults and relations of earlier written trees) -/
theorem c32_relations {defaults : Dict (List Char) (List Char)} {T : Rst} (h : Regular T) (hd : (Dict.keys defaults).Nodup) :
    ∃ doc d', writeRs3 defaults T.docTree = .ok (doc, d') ∧ (doc.rels.map Prod.fst).Nodup ∧
      (∀ name kids, Part (.rel name kids) T → ∃ kids', Part (.rel name kids') T ∧
        (name, some (if .S ∈ kids'.map Prod.fst then ['r', 's', 't'] else ['m', 'u', 'l', 't', 'i', 'n', 'u', 'c'])) ∈ doc.rels) ∧
      (∀ name ty, (∀ kids, ¬ Part (.rel name kids) T) → ((name, some ty) ∈ doc.rels ↔ (name, ty) ∈ defaults)) ∧
      (∀ name ty, (name, some ty) ∈ doc.rels ↔ Dict.find d' name = some ty) := by
  obtain ⟨doc, d', hw, _, hr, hp, hd'⟩ := c32_elements (defaults := defaults) h
  have hnd : (Dict.keys (declaredTypes defaults T)).Nodup := by
    unfold declaredTypes
    exact nodup_foldl_put (fun r => r) _ _ hd
  have hmem : ∀ name ty, (name, some ty) ∈ doc.rels ↔ Dict.find (declaredTypes defaults T) name = some ty := by
    intro name ty
    rw [hr]
    constructor
    · rintro ⟨_, e⟩; exact e.symm
    · intro e
      refine ⟨?_, e.symm⟩
      have := Dict.find_some_mem e
      exact List.mem_map_of_mem this
  refine ⟨doc, d', hw, hp.nodup_iff.2 hnd, ?_, ?_, ?_⟩
  · intro name kids hpart
    obtain ⟨kids', hp', hf⟩ := declared_of_part (defaults := defaults) hpart
    exact ⟨kids', hp', (hmem _ _).2 hf⟩
  · intro name ty hno
    rw [hmem, find_declaredTypes]
    have : T.relations.reverse.find? (fun r => decide (r.1 = name)) = none := by
      rw [List.find?_eq_none]
      rintro ⟨n, nucs⟩ hm e
      obtain ⟨kids, hk, _⟩ := relations_mem.1 (List.mem_reverse.1 hm)
      simp at e
      subst e
      exact hno kids hk
    rw [this]
    show Dict.find defaults name = some ty ↔ _
    exact ⟨fun e => Dict.find_some_mem e, fun e => Dict.mem_find hd e⟩
  · intro name ty
    rw [hmem, hd']

set_option synthInstance.maxSize 1000 in
/-- the type of a relation is not unique if a name is used for a multinuclear relation and for one with a satellite: the last occurrence in the tree counts -/
theorem c32_type_of_last_occurrence :
    (writeRs3 [] (Rst.rel ['e'] [(.N, .edu ['a']), (.S, .rel ['e'] [(.N, .edu ['b']), (.N, .edu ['c'])])]).docTree).map
        (fun r => (r.1.rels, r.1.elems.map (fun x => (x.id, x.parent, x.relname)))) =
      .ok ([(['e'], some ['m', 'u', 'l', 't', 'i', 'n', 'u', 'c'])],
        [(['3'], some ['1'], some ['e']), (['7'], some ['5'], some ['e']), (['9'], some ['5'], some ['e']), (['1'], none, none), (['5'], some ['1'], some ['e'])]) ∧
    (writeRs3 [] (Rst.rel ['e'] [(.N, .edu ['a']), (.S, .edu ['b'])]).docTree).map (fun r => r.1.rels) = .ok [(['e'], some ['r', 's', 't'])] := by decide +kernel

/-- a relation between a nucleus and two satellites cannot be written (ValueError: unexpected child combination) -/
theorem c32_rejects_two_satellites :
    writeRs3 [] (Rst.rel ['e'] [(.S, .edu ['a']), (.N, .edu ['b']), (.S, .edu ['c'])]).docTree = .error .value := rfl

end Dg
