import Verif.Lemmas.Rs3Tree
import Verif.Lemmas.PTreeDec
import Batteries.Lean.Except

/-!
**C33** RS3 write/read round-trip: reading back with read_rs3tree what write_rs3 wrote yields the same RST tree.

Trees are the trees of the rhetorical structures of Spec/Rst.lean in which every relation joins a nucleus and a satellite or several nuclei (`Rst.Regular`).  The file between writing and
reading is the list of relations and elements (lxml and minidom are trusted).  The round trip needs, and the `c33_fails_…` theorems show that it needs: distinct EDU texts, EDU texts
that are not empty and have single blanks between words and none at the ends, no relation called `span`, and no relation name that is used for a multinuclear relation as well as for one
with a satellite.
-/

namespace Dg
open Rst Rs3Writer
open Rs3Data hiding edus
open DG (mapE mapE_ok mapE_total)

/-! ### The elements of a written file -/

theorem rs3Elems_info {isRst : List Char → Bool} (T : Rst) : ∀ (n : Nat) (up : Option (List Char × Nat)) (x : Rs3Xml), x ∈ T.rs3Elems isRst n up →
    (x.relname = up.map Prod.fst ∨ x.relname = some ['s', 'p', 'a', 'n'] ∨ ∃ name kids, Part (.rel name kids) T ∧ x.relname = some name) ∧
    ((∃ s ∈ T.edus, x.kind = .segment (if s = [] then none else some s)) ∨ ∃ ty, x.kind = .group ty) := by
  induction T using Rst.ind with
  | h1 s =>
    intro n up x hx
    rw [rs3Elems, List.mem_singleton] at hx
    subst hx
    exact ⟨.inl rfl, .inl ⟨s, by simp [edus], rfl⟩⟩
  | h2 name kids ih =>
    intro n up x hx
    rw [rs3Elems] at hx
    rcases List.mem_cons.1 hx with rfl | hx
    · exact ⟨.inl rfl, .inr ⟨_, rfl⟩⟩
    · have key : ∀ (ks : List (Nuc × Rst)), (∀ k ∈ ks, k ∈ kids) → ∀ (nuc m : Nat), x ∈ rs3Parts isRst name n nuc m ks →
          (x.relname = some ['s', 'p', 'a', 'n'] ∨ ∃ name' kids', Part (.rel name' kids') (.rel name kids) ∧ x.relname = some name') ∧
          ((∃ s ∈ edusAll ks, x.kind = .segment (if s = [] then none else some s)) ∨ ∃ ty, x.kind = .group ty) := by
        intro ks
        induction ks with
        | nil => intro _ nuc m hx; simp [rs3Parts] at hx
        | cons k ks ih2 =>
          obtain ⟨k, t⟩ := k
          intro hsub nuc m hx
          rw [rs3Parts, List.mem_append] at hx
          rw [edusAll]
          rcases hx with hx | hx
          · obtain ⟨h1, h2⟩ := ih (k, t) (hsub _ (by simp)) (m + 1) _ x hx
            dsimp only at h1 h2
            constructor
            · rcases h1 with h1 | h1 | ⟨a, b, h1, h2⟩
              · rw [h1]
                unfold rs3Up
                split
                · cases k
                  · exact .inl rfl
                  · exact .inr ⟨name, kids, .refl _, rfl⟩
                · exact .inr ⟨name, kids, .refl _, rfl⟩
              · exact .inl h1
              · exact .inr ⟨a, b, .kid (hsub (k, t) (by simp)) h1, h2⟩
            · rcases h2 with ⟨s, hs, h2⟩ | h2
              · exact .inl ⟨s, List.mem_append_left _ hs, h2⟩
              · exact .inr h2
          · obtain ⟨h1, h2⟩ := ih2 (fun k hk => hsub k (List.mem_cons_of_mem _ hk)) nuc _ hx
            refine ⟨h1, ?_⟩
            rcases h2 with ⟨s, hs, h2⟩ | h2
            · exact .inl ⟨s, List.mem_append_right _ hs, h2⟩
            · exact .inr h2
      obtain ⟨h1, h2⟩ := key kids (fun k hk => hk) _ _ hx
      refine ⟨.inr h1, ?_⟩
      rw [edus]
      exact h2

theorem rs3Elems_length {isRst : List Char → Bool} (T : Rst) : ∀ (n : Nat) (up : Option (List Char × Nat)), (T.rs3Elems isRst n up).length = T.size := by
  induction T using Rst.ind with
  | h1 s => intro n up; rfl
  | h2 name kids ih =>
    intro n up
    have key : ∀ (ks : List (Nuc × Rst)), (∀ k ∈ ks, k ∈ kids) → ∀ (nuc m : Nat), (rs3Parts isRst name n nuc m ks).length = sizeAll ks := by
      intro ks
      induction ks with
      | nil => intro _ nuc m; rfl
      | cons k ks ih2 =>
        obtain ⟨k, t⟩ := k
        intro hsub nuc m
        rw [rs3Parts, List.length_append, ih2 (fun k hk => hsub k (List.mem_cons_of_mem _ hk)), sizeAll]
        have := ih (k, t) (hsub _ (by simp)) (m + 1) (some (rs3Up (isRst name) name n nuc k))
        dsimp only at this
        rw [this]
    rw [rs3Elems, List.length_cons, key kids (fun k hk => hk), size, Nat.add_comm]

theorem find_extractRelationtypes (rels : List (List Char × Option (List Char))) (hnd : (rels.map Prod.fst).Nodup) (n ty : List Char) :
    Dict.find (extractRelationtypes rels) n = some ty ↔ (n, some ty) ∈ rels := by
  have key : ∀ (rels : List (List Char × Option (List Char))) (d : Dict (List Char) (List Char)), (rels.map Prod.fst).Nodup →
      (Dict.find (rels.foldl (fun d r => match r.2 with | some ty => Dict.put d r.1 ty | none => d) d) n = some ty ↔
        (n, some ty) ∈ rels ∨ (Dict.find d n = some ty ∧ ∀ ty', (n, some ty') ∉ rels)) := by
    intro rels
    induction rels with
    | nil => intro d _; simp
    | cons r rels ih =>
      obtain ⟨k, v⟩ := r
      intro d hnd
      rw [List.map_cons, List.nodup_cons] at hnd
      rw [List.foldl_cons, ih _ hnd.2]
      dsimp only at hnd
      have hk : ∀ v', (k, v') ∉ rels := fun v' hm => hnd.1 (List.mem_map_of_mem (f := Prod.fst) hm)
      cases v with
      | none => simp
      | some v =>
        dsimp only
        rw [Dict.find_put]
        by_cases h : k = n
        · subst h
          simp [hk]
          exact eq_comm
        · have h' : ¬ (n = k) := fun e => h e.symm
          simp [h, h']
  have := key rels [] hnd
  unfold extractRelationtypes
  refine this.trans ?_
  simp [Dict.find]

theorem getRs3Data_total {doc : Rs3Doc} (h : ∀ x ∈ doc.elems, ∃ e, entryOf (extractRelationtypes doc.rels) x = .ok e) : ∃ d, getRs3Data doc = .ok d := by
  unfold getRs3Data
  generalize extractRelationtypes doc.rels = rt at h ⊢
  generalize (⟨[], [], []⟩ : Rs3Data) = d
  generalize doc.elems = xs at h ⊢
  induction xs generalizing d with
  | nil => exact ⟨d, rfl⟩
  | cons x xs ih =>
    obtain ⟨e, he⟩ := h x (by simp)
    rw [List.foldlM_cons, readElem_eq, he]
    exact ih _ (fun x hx => h x (List.mem_cons_of_mem _ hx))

/-- the structures that survive the round trip -/
structure Rst.Writable (T : Rst) : Prop where
  regular : Regular T
  /-- no relation is called `span` -/
  span : ∀ kids, ¬ Part (.rel ['s', 'p', 'a', 'n'] kids) T
  /-- a relation always has a satellite or never -/
  types : ∀ name kids kids', Part (.rel name kids) T → Part (.rel name kids') T → (Nuc.S ∈ kids.map Prod.fst ↔ Nuc.S ∈ kids'.map Prod.fst)
  /-- the EDU texts are different from one another -/
  distinct : T.edus.Nodup
  /-- an EDU is not empty; its words are separated by single blanks -/
  texts : ∀ s ∈ T.edus, s ≠ [] ∧ normalizeEduString s = s

theorem Rst.Writable.fits {T : Rst} (h : T.Writable) (defaults : Dict (List Char) (List Char)) : Fits (declaredRst defaults T) T := by
  intro name kids hp
  refine ⟨?_, ?_⟩
  · obtain ⟨kids', hp', hf⟩ := declared_of_part (defaults := defaults) hp
    rw [h.types name kids kids' hp hp']
    unfold declaredRst
    rw [hf]
    unfold typeName
    split <;> simp [*]
  · rintro rfl
    exact h.span kids hp

theorem writable_holds {defaults : Dict (List Char) (List Char)} {T : Rst} (hT : T.Writable) (hk : (Dict.keys defaults).Nodup)
    (hspan : Dict.find defaults ['s', 'p', 'a', 'n'] = none) :
    ∃ doc d' d, writeRs3 defaults T.docTree = .ok (doc, d') ∧ getRs3Data doc = .ok d ∧ Holds d (declaredRst defaults T) (T.rs3Doc (declaredRst defaults T)) ∧
      d.elems.length = T.size ∧ d.eduStrings = T.edus ∧ d.edus.Nodup ∧ ∀ x, x ∈ T.rs3Doc (declaredRst defaults T) → x.parent = none → d.kids none = [x.id] := by
  obtain ⟨doc, d', hw, he, hr, hp, hd'⟩ := c32_elements (defaults := defaults) hT.regular
  have hfits := hT.fits defaults
  have hnd : (Dict.keys (declaredTypes defaults T)).Nodup := by
    unfold declaredTypes
    exact nodup_foldl_put (fun r => r) _ _ hk
  have hfind : ∀ n, Dict.find (extractRelationtypes doc.rels) n = Dict.find (declaredTypes defaults T) n := by
    intro n
    apply Option.ext
    intro ty
    rw [find_extractRelationtypes _ (hp.nodup_iff.2 hnd), hr]
    constructor
    · rintro ⟨_, e⟩; exact e.symm
    · intro e
      exact ⟨List.mem_map_of_mem (f := Prod.fst) (Dict.find_some_mem e), e.symm⟩
  obtain ⟨n, hn⟩ : ∃ n, T.rs3Doc (declaredRst defaults T) = T.rs3Elems (declaredRst defaults T) n none := by
    cases T with
    | edu s => exact ⟨2, rfl⟩
    | rel a ks => exact ⟨1, rfl⟩
  have hspan' : Dict.find (declaredTypes defaults T) ['s', 'p', 'a', 'n'] = none := by
    rw [find_declaredTypes]
    cases hf : T.relations.reverse.find? (fun r => decide (r.1 = ['s', 'p', 'a', 'n'])) with
    | none => exact hspan
    | some r =>
      obtain ⟨m, nucs⟩ := r
      have h1 := List.find?_some hf
      have h2 := List.mem_of_find?_eq_some hf
      simp at h1
      subst h1
      obtain ⟨ks, hp, rfl⟩ := relations_mem.1 (List.mem_reverse.1 h2)
      exact absurd hp (hT.span ks)
  have hperm : doc.elems.Perm (T.rs3Doc (declaredRst defaults T)) := he ▸ List.filter_append_perm _ _
  -- the relation of an element
  have hrel : ∀ x ∈ T.rs3Doc (declaredRst defaults T), ∀ up : Option (List Char × Nat), x.relname = up.map Prod.fst →
      relationOf (extractRelationtypes doc.rels) x.relname = .ok (upType (declaredRst defaults T) up) := by
    intro x hx up hup
    rw [hn] at hx
    obtain ⟨h1, _⟩ := rs3Elems_info T n none x hx
    cases up with
    | none => rw [hup]; rfl
    | some u =>
      obtain ⟨name, q⟩ := u
      simp only [Option.map_some] at hup
      rw [hup]
      unfold relationOf upType
      dsimp only
      rw [hfind]
      rw [hup] at h1
      by_cases hsp : name = ['s', 'p', 'a', 'n']
      · rw [if_pos hsp, hsp, hspan']
      · rw [if_neg hsp]
        rcases h1 with h1 | h1 | ⟨nm, kids, h1, h2⟩
        · cases h1
        · exact absurd (Option.some.inj h1) hsp
        · cases h2
          obtain ⟨kids', _, hf⟩ := declared_of_part (defaults := defaults) h1
          unfold declaredRst
          rw [hf]
          unfold typeName
          dsimp only
          split <;> simp
  have hkind : ∀ x ∈ T.rs3Doc (declaredRst defaults T), (∃ s ∈ T.edus, x.kind = .segment (some s)) ∨ ∃ ty, x.kind = .group ty := by
    intro x hx
    rw [hn] at hx
    rcases (rs3Elems_info T n none x hx).2 with ⟨s, hs, h⟩ | h
    · rw [if_neg (hT.texts s hs).1] at h
      exact .inl ⟨s, hs, h⟩
    · exact .inr h
  have hentry : ∀ x ∈ T.rs3Doc (declaredRst defaults T), ∀ up : Option (List Char × Nat), x.parent = up.map (fun u => decimal u.2) → x.relname = up.map Prod.fst →
      entryOf (extractRelationtypes doc.rels) x = .ok (repEntry (declaredRst defaults T) up (match x.kind with | .segment s => .inl (s.getD []) | .group ty => .inr ty)) := by
    intro x hx up h1 h2
    unfold entryOf
    rw [hrel x hx up h2, except_bind_ok]
    rcases hkind x hx with ⟨s, hs, h⟩ | ⟨ty, h⟩
    · rw [h]
      dsimp only
      rw [h1, h2, (hT.texts s hs).2]
      rfl
    · rw [h]
      dsimp only
      rw [h1, h2]
      rfl
  have hup : ∀ x ∈ T.rs3Doc (declaredRst defaults T), ∃ up : Option (List Char × Nat), x.parent = up.map (fun u => decimal u.2) ∧ x.relname = up.map Prod.fst := by
    intro x hx
    rw [hn] at hx
    obtain ⟨r, xs, h1, _, h3, h4, _⟩ := rs3Elems_parents (isRst := declaredRst defaults T) T hT.regular.nucleus n none
    obtain ⟨r', xs', h1', _, _, _, h5'⟩ := rs3Elems_parents_in (isRst := declaredRst defaults T) hT.regular.nucleus n none
    obtain ⟨r'', xs'', h1'', _, _, _, h5''⟩ := rs3Elems_parents (isRst := declaredRst defaults T) T hT.regular.nucleus n none
    rw [h1'] at h1 h1''
    obtain ⟨rfl, rfl⟩ := List.cons.inj h1
    obtain ⟨rfl, rfl⟩ := List.cons.inj h1''
    rw [h1'] at hx
    rcases List.mem_cons.1 hx with rfl | hx
    · exact ⟨none, h3, h4⟩
    · obtain ⟨p, hp, _⟩ := h5' x hx
      obtain ⟨_, _, hrn, _⟩ := h5'' x hx
      obtain ⟨nm, hnm⟩ := Option.ne_none_iff_exists'.1 hrn
      exact ⟨some (nm, p), hp, hnm⟩
  obtain ⟨d, hd⟩ := getRs3Data_total (doc := doc) (fun x hx => by
    have hx := hperm.mem_iff.1 hx
    obtain ⟨up, h1, h2⟩ := hup x hx
    exact ⟨_, hentry x hx up h1 h2⟩)
  have hids : ((T.rs3Doc (declaredRst defaults T)).map Rs3Xml.id).Nodup := by rw [hn]; exact rs3Elems_nodup _ T n none
  have hRF := getRs3Data_ok hd ((hperm.map _).nodup_iff.2 hids)
  have hfindx : ∀ x ∈ T.rs3Doc (declaredRst defaults T), ∀ up : Option (List Char × Nat), x.parent = up.map (fun u => decimal u.2) → x.relname = up.map Prod.fst →
      Dict.find d.elems x.id = some (repEntry (declaredRst defaults T) up (match x.kind with | .segment s => .inl (s.getD []) | .group ty => .inr ty)) := by
    intro x hx up h1 h2
    obtain ⟨e, h3, h4⟩ := hRF.find x (hperm.mem_iff.2 hx)
    rw [hentry x hx up h1 h2] at h3
    rw [h4]
    cases h3
    rfl
  have hsegs : doc.elems.filter Rs3Xml.isSeg = (T.rs3Doc (declaredRst defaults T)).filter Rs3Xml.isSeg := by
    rw [he, List.filter_append, List.filter_filter, List.filter_filter]
    have e1 : ((T.rs3Doc (declaredRst defaults T)).filter (fun x => Rs3Xml.isSeg x && !isSegment x)) = [] := by
      rw [List.filter_eq_nil_iff]
      intro x _
      have : Rs3Xml.isSeg x = isSegment x := rfl
      rw [this]
      simp
    rw [e1, List.append_nil]
    congr 1
    funext x
    have : Rs3Xml.isSeg x = isSegment x := rfl
    rw [this, Bool.and_self]
  have hedus : d.edus = ((T.rs3Doc (declaredRst defaults T)).filter Rs3Xml.isSeg).map Rs3Xml.id := by rw [hRF.edus, hsegs]
  refine ⟨doc, d', d, hw, hd, ⟨hids, hedus, ?_, ?_, ?_⟩, ?_, ?_, ?_, ?_⟩
  · intro i
    rw [hRF.kids]
    exact (hperm.filter _).map _
  · intro i
    rw [hRF.has]
    constructor
    · rintro ⟨x, hx, h⟩; exact ⟨x, hperm.mem_iff.1 hx, h⟩
    · rintro ⟨x, hx, h⟩; exact ⟨x, hperm.mem_iff.2 hx, h⟩
  · intro i up kind hx
    exact hfindx _ hx up rfl rfl
  · have := congrArg List.length hRF.keys
    rw [List.length_map, List.length_map, hperm.length_eq, hn, rs3Elems_length] at this
    exact this
  · unfold eduStrings
    rw [hedus, List.map_map, ← rs3Elems_texts (declaredRst defaults T) T n none, ← hn]
    have : ∀ xs : List Rs3Xml, (∀ x ∈ xs, x ∈ T.rs3Doc (declaredRst defaults T)) →
        (xs.filter Rs3Xml.isSeg).map ((fun i => match Dict.find d.elems i with | some ⟨_, _, _, _, .inl s⟩ => s | _ => []) ∘ Rs3Xml.id) = xs.filterMap Rs3Xml.text? := by
      intro xs
      induction xs with
      | nil => intro _; rfl
      | cons x xs ih =>
        intro hsub
        have ih := ih (fun x hx => hsub x (List.mem_cons_of_mem _ hx))
        have hx := hsub x (by simp)
        obtain ⟨up, h1, h2⟩ := hup x hx
        have hf := hfindx x hx up h1 h2
        rcases hkind x hx with ⟨s, hs, h⟩ | ⟨ty, h⟩
        · rw [List.filter_cons_of_pos (by unfold Rs3Xml.isSeg; rw [h]), List.map_cons, ih, List.filterMap_cons_some (b := s) (by unfold Rs3Xml.text?; rw [h])]
          congr 1
          show (match Dict.find d.elems x.id with | some ⟨_, _, _, _, .inl s⟩ => s | _ => []) = s
          rw [hf, h]
          rfl
        · rw [List.filter_cons_of_neg (by unfold Rs3Xml.isSeg; rw [h]; simp), ih, List.filterMap_cons_none (by unfold Rs3Xml.text?; rw [h])]
    exact this _ (fun x hx => hx)
  · rw [hedus]
    exact hids.sublist (List.filter_sublist.map _)
  · intro x hx hpx
    rw [hRF.kids]
    have hmem : ∀ y ∈ doc.elems.filter (fun y => decide (y.parent = none)), y = x := by
      intro y hy
      obtain ⟨h1, h2⟩ := List.mem_filter.1 hy
      have h1 := hperm.mem_iff.1 h1
      simp only [decide_eq_true_eq] at h2
      rw [hn] at h1 hx
      obtain ⟨r, xs, h3, _, _, _, h5⟩ := rs3Elems_parents (isRst := declaredRst defaults T) T hT.regular.nucleus n none
      rw [h3] at h1 hx
      have hr : ∀ z, z ∈ r :: xs → z.parent = none → z = r := by
        intro z hz hzp
        rcases List.mem_cons.1 hz with rfl | hz
        · rfl
        · obtain ⟨i, h6, _⟩ := h5 z hz
          rw [hzp] at h6
          cases h6
      rw [hr y h1 h2, hr x hx hpx]
    have hin : x ∈ doc.elems.filter (fun y => decide (y.parent = none)) := List.mem_filter.2 ⟨hperm.mem_iff.2 hx, by simpa using hpx⟩
    have hnd2 : (doc.elems.filter (fun y => decide (y.parent = none))).Nodup :=
      (List.Nodup.of_map _ ((hperm.map _).nodup_iff.2 hids)).sublist List.filter_sublist
    generalize doc.elems.filter (fun y => decide (y.parent = none)) = fs at hmem hin hnd2
    match fs, hmem, hin, hnd2 with
    | [y], hmem, _, _ => rw [hmem y (by simp)]; rfl
    | y :: z :: r, hmem, _, hnd2 =>
      rw [hmem y (by simp), hmem z (by simp)] at hnd2
      simp at hnd2

/-- **C33** Reading what has been written for a structure with distinct, normalised EDU texts and consistent relation types yields the tree that was written, whatever relations the
class attribute `default_relations` has collected from earlier writes (unless one of them is called `span`). -/
theorem c33_roundtrip {defaults : Dict (List Char) (List Char)} {T : Rst} (hT : T.Writable) (hk : (Dict.keys defaults).Nodup)
    (hspan : Dict.find defaults ['s', 'p', 'a', 'n'] = none) :
    ∃ doc d' X, writeRs3 defaults T.docTree = .ok (doc, d') ∧ readRs3 doc = .ok X ∧ X.plain = T.docTree := by
  obtain ⟨doc, d', d, hw, hd, hH, hlen, hstr, hnd, hroot⟩ := writable_holds hT hk hspan
  obtain ⟨n, hn⟩ : ∃ n, T.rs3Doc (declaredRst defaults T) = T.rs3Elems (declaredRst defaults T) n none := by
    cases T with
    | edu s => exact ⟨2, rfl⟩
    | rel a ks => exact ⟨1, rfl⟩
  have hrep : Rep d (declaredRst defaults T) n none [] 0 T :=
    rep_of hH T hT.regular.nucleus n none [] [] [] (by rw [hn]; simp) (by simp) (by simp) (by simp)
  obtain ⟨kind, hent⟩ := rep_entry hrep
  have hh : HasHeight d (decimal n) 1 := .root hent rfl
  obtain ⟨X, hX, hdt⟩ := ((dt_rep hnd (by rw [hstr]; exact hT.distinct) T hT.regular (hT.fits defaults) n 0 1 none [] hrep hh).1 rfl (by omega)).1 rfl
  refine ⟨doc, d', X, hw, ?_, hX⟩
  unfold readRs3 root2tree
  rw [hd, except_bind_ok]
  obtain ⟨r, xs, h1, h2, h3, _⟩ := rs3Elems_parents_in (isRst := declaredRst defaults T) hT.regular.nucleus n none
  rw [hroot r (by rw [hn, h1]; simp) h3, h2]
  exact hdt _ (by omega)

/-- non-vacuity: a nucleus with a satellite before it, in a multinuclear relation with two further EDUs; EDU texts with several words -/
example : (Rst.rel ['j'] [(.N, .rel ['e'] [(.S, .edu ['a', ' ', 'b']), (.N, .edu ['b'])]), (.N, .edu ['c']), (.N, .edu ['d'])]).Writable where
  regular := by
    refine regular_rel (by simp) ?_
    simp only [List.forall_mem_cons]
    refine ⟨regular_rel (by simp) ?_, regular_edu _, regular_edu _, by simp⟩
    simp only [List.forall_mem_cons]
    exact ⟨regular_edu _, regular_edu _, by simp⟩
  span := by
    intro kids h
    have := relations_mem.2 ⟨kids, h, rfl⟩
    simp [relations, relationsAll] at this
  types := by
    intro name kids kids' h h'
    have g := relations_mem.2 ⟨kids, h, rfl⟩
    have g' := relations_mem.2 ⟨kids', h', rfl⟩
    clear h h'
    simp only [relations, relationsAll, List.mem_cons, List.append_nil, Prod.mk.injEq, List.not_mem_nil, or_false] at g g'
    rcases g with ⟨rfl, h⟩ | ⟨rfl, h⟩ <;> rcases g' with ⟨h1, h'⟩ | ⟨h1, h'⟩ <;> first | (exact absurd h1 (by decide)) | (rw [h, h'])
  distinct := by decide
  texts := by decide

/-- write a tree and read it back -/
def rs3RoundTrip (defaults : Dict (List Char) (List Char)) (t : PTree) : Except PyErr PTree := do
  let (doc, _) ← writeRs3 defaults t
  return (← readRs3 doc).plain

/-- C33 fails for a structure with two equal EDUs: the order of a satellite and a multinuclear nucleus is taken from the first occurrences of their first EDUs, and
reading the file ends with an AssertionError if both are the same -/
theorem c33_fails_equal_edus : rs3RoundTrip [] (Rst.rel ['e'] [(.S, .edu ['b']), (.N, .rel ['j'] [(.N, .edu ['b']), (.N, .edu ['c'])])]).docTree = .error .assertion := by decide +kernel

/-- C33 fails for an empty EDU: reading the file ends with an AttributeError -/
theorem c33_fails_empty_edu : rs3RoundTrip [] (Rst.rel ['e'] [(.S, .edu ['b']), (.N, .edu [])]).docTree = .error .attribute := by decide +kernel

/-- C33 fails for a text with two blanks in a row: they are replaced by one -/
theorem c33_fails_blanks : rs3RoundTrip [] (Rst.edu ['a', ' ', ' ', 'b']).docTree = .ok (Rst.edu ['a', ' ', 'b']).docTree := by decide +kernel

/-- C33 fails for a relation called `span`: the nucleus becomes a satellite -/
theorem c33_fails_span : rs3RoundTrip [] (Rst.rel ['s', 'p', 'a', 'n'] [(.N, .edu ['b']), (.S, .edu ['a'])]).docTree =
    .ok (Rst.rel ['s', 'p', 'a', 'n'] [(.S, .edu ['b']), (.S, .edu ['a'])]).tree := by decide +kernel

/-- C33 fails for every tree with a satellite after some tree with a relation called `span` has been written: the nucleus becomes a satellite in the second file, because `write_rs3`
adds the relations of a tree to the class attribute with the default relations -/
theorem c33_fails_after_span :
    (do let (_, defaults) ← writeRs3 [] (Rst.rel ['s', 'p', 'a', 'n'] [(.N, .edu ['b']), (.S, .edu ['a'])]).docTree
        rs3RoundTrip defaults (Rst.rel ['e'] [(.N, .edu ['b']), (.S, .edu ['a'])]).docTree) = .ok (Rst.rel ['e'] [(.S, .edu ['b']), (.S, .edu ['a'])]).tree ∧
    rs3RoundTrip [] (Rst.rel ['e'] [(.N, .edu ['b']), (.S, .edu ['a'])]).docTree = .ok (Rst.rel ['e'] [(.N, .edu ['b']), (.S, .edu ['a'])]).docTree := by decide +kernel

/-- C33 fails for a relation name with both types: satellites become nuclei, or the file cannot be read at all (IndexError) -/
theorem c33_fails_two_types :
    rs3RoundTrip [] (Rst.rel ['e'] [(.N, .edu ['a']), (.S, .rel ['e'] [(.N, .edu ['b']), (.N, .edu ['c'])])]).docTree =
      .ok (Rst.rel ['e'] [(.N, .edu ['a']), (.N, .rel ['e'] [(.N, .edu ['b']), (.N, .edu ['c'])])]).docTree ∧
    rs3RoundTrip [] (Rst.rel ['e'] [(.N, .rel ['e'] [(.N, .edu ['b']), (.S, .edu ['c'])]), (.N, .edu ['a'])]).docTree = .error .index := by decide +kernel

end Dg
