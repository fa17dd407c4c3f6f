/-
The LaTeX export draws the structure it is given.
-/
import Verif.Lemmas.RstLatex

namespace Dg
open DG (mapE mapE_ok)

theorem mapE_of_forall {α β : Type} {f : α → Except PyErr β} {xs : List α} {ys : List β} (h : List.Forall₂ (fun x y => f x = .ok y) xs ys) : mapE f xs = .ok ys :=
  mapE_ok.2 h

theorem forall₂_of_exists {α β : Type} {R : α → β → Prop} : ∀ {xs : List α}, (∀ x ∈ xs, ∃ y, R x y) → ∃ ys, List.Forall₂ R xs ys
  | [], _ => ⟨[], .nil⟩
  | x :: xs, h => by
    obtain ⟨y, hy⟩ := h x (by simp)
    obtain ⟨ys, hys⟩ := forall₂_of_exists (fun z hz => h z (List.mem_cons_of_mem _ hz))
    exact ⟨y :: ys, .cons hy hys⟩

variable {pf : PTree → List Char}

theorem rstLatex_mono {fuel level : Nat} {rel : List Char} {left : Bool} {sat nuc : LTree} {so no : List Char} (hr : LTree.RelName rel)
    (hs : rstLatex pf fuel sat.toPTree (level + 1) = .ok so) (hn : rstLatex pf fuel nuc.toPTree (level + 1) = .ok no) (ds : sat.Draws so) (dn : nuc.Draws no) :
    ∃ out, rstLatex pf (fuel + 1) (LTree.nucSatNode rel left sat.toPTree nuc.toPTree) level = .ok out ∧ (LTree.mono rel left sat nuc).Draws out := by
  obtain ⟨r, h1, h2⟩ := makeNucsat_ok hr.1 left ds dn
  refine ⟨indentTab (dirrelCmd ++ r) level, ?_, ?_, ?_⟩
  · rw [nucSatNode_eq]
    unfold rstLatex
    simp only []
    rw [if_neg (by rintro (h | h); exact hr.2.1 h; exact hr.2.2.1 h)]
    have ht : mapE nodeType (sideParts left (PTree.node ['S'] [sat.toPTree]) (PTree.node ['N'] [nuc.toPTree])) = .ok (sideTypes left) := by
      cases left <;> rfl
    have hk : mapE (fun k => rstLatex pf fuel k (level + 1))
        ((sideParts left (PTree.node ['S'] [sat.toPTree]) (PTree.node ['N'] [nuc.toPTree])).flatMap ptreeKids) = .ok (sideParts left so no) := by
      apply mapE_of_forall
      cases left
      · exact .cons hn (.cons hs .nil)
      · exact .cons hs (.cons hn .nil)
    rw [ht]
    simp only [bind, Except.bind]
    rw [if_neg (by cases left <;> decide)]
    erw [hk]
    dsimp only
    rw [if_neg (by cases left <;> decide), if_neg hr.2.2.2, h1]
  · rw [flat_indentTab, h2]
  · rw [not_edu_dirrel]
    simp

theorem rstLatex_multi {fuel level : Nat} {rel : List Char} {kids : List LTree} {outs : List (List Char)} (hr : LTree.RelName rel) (hne : kids ≠ [])
    (hk : List.Forall₂ (fun (k : LTree) o => rstLatex pf fuel k.toPTree (level + 1) = .ok o ∧ k.Draws o) kids outs) :
    ∃ out, rstLatex pf (fuel + 1) (LTree.multi rel kids).toPTree level = .ok out ∧ (LTree.multi rel kids).Draws out := by
  have hd : List.Forall₂ LTree.Draws kids outs := hk.imp (fun _ _ h => h.2)
  have hm := flat_multinuc hr.1 hd
  refine ⟨indentTab (makeMultinuc rel outs) level, ?_, ?_, ?_⟩
  · simp only [LTree.toPTree, LTree.toPTrees_eq]
    unfold rstLatex
    simp only []
    rw [if_neg (by rintro (h | h); exact hr.2.1 h; exact hr.2.2.1 h)]
    have ht : mapE nodeType (kids.map (fun k => PTree.node ['N'] [k.toPTree])) = .ok (kids.map (fun _ => ['N'])) := by
      apply mapE_of_forall
      rw [List.forall₂_map_left_iff, List.forall₂_map_right_iff, List.forall₂_same]
      intro k _; rfl
    have hk2 : mapE (fun k => rstLatex pf fuel k (level + 1)) ((kids.map (fun k => PTree.node ['N'] [k.toPTree])).flatMap ptreeKids) = .ok outs := by
      apply mapE_of_forall
      have : (kids.map (fun k => PTree.node ['N'] [k.toPTree])).flatMap ptreeKids = kids.map LTree.toPTree := by
        rw [List.flatMap_map, List.map_eq_flatMap]; rfl
      rw [this, List.forall₂_map_left_iff]
      exact hk.imp (fun _ _ h => h.1)
    rw [ht]
    simp only [bind, Except.bind]
    rw [if_neg (by simp), hk2]
    dsimp only
    rw [if_pos (by simpa using hne)]
  · rw [flat_indentTab, hm]
  · unfold makeMultinuc
    rw [List.append_assoc, List.append_assoc, List.append_assoc, not_edu_multirel]
    simp

theorem toRelations_eq (nuc : PTree) : ∀ (rels : List (List Char × Bool)) (sats : List LTree),
    LTree.toRelations nuc rels sats = (rels.zip sats).map (fun x => .node ['S'] [LTree.nucSatNode x.1.1 x.1.2 x.2.toPTree nuc])
  | [], [] => by simp [LTree.toRelations]
  | [], _ :: _ => by simp [LTree.toRelations]
  | _ :: _, [] => by simp [LTree.toRelations]
  | r :: rs, k :: ks => by simp only [LTree.toRelations, List.zip_cons_cons, List.map_cons, toRelations_eq nuc rs ks]

theorem zip_map_tuple (no : List Char) : ∀ (rels : List (List Char × Bool)) (outs : List (List Char)), rels.length = outs.length →
    (rels.map Prod.fst).zip ((rels.map (fun r => sideTypes r.2)).zip ((rels.zip outs).map (fun x => sideParts x.1.2 x.2 no))) = (rels.zip outs).map (satTuple no)
  | [], [], _ => rfl
  | r :: rs, o :: os, h => by
    simp only [List.map_cons, List.zip_cons_cons, zip_map_tuple no rs os (by simpa using h)]
    rfl
  | [], _ :: _, h => by simp at h
  | _ :: _, [], h => by simp at h

theorem forall₂_zip {α β γ : Type} {R : β → γ → Prop} : ∀ {as : List α} {bs : List β} {cs : List γ}, List.Forall₂ R bs cs →
    List.Forall₂ (fun (x : α × β) (y : α × γ) => x.1 = y.1 ∧ R x.2 y.2) (as.zip bs) (as.zip cs)
  | [], _, _, _ => by simp
  | a :: as, _, _, .nil => by simp
  | a :: as, _, _, .cons h t => .cons ⟨rfl, h⟩ (forall₂_zip t)

theorem rstLatex_bundle_step {fuel level : Nat} {rels : List (List Char × Bool)} {sats : List LTree} {nuc : LTree} {outs : List (List Char)} {no : List Char}
    (hlen : rels.length = sats.length) (h2 : 2 ≤ rels.length)
    (hk : List.Forall₂ (fun (k : LTree) o => rstLatex pf fuel k.toPTree 0 = .ok o ∧ k.Draws o) sats outs)
    (hn : rstLatex pf fuel nuc.toPTree 0 = .ok no)
    (htry : ∀ x ∈ rels.zip sats, ∃ o, rstLatex pf fuel (LTree.nucSatNode x.1.1 x.1.2 x.2.toPTree nuc.toPTree) (level + 1) = .ok o)
    {r : List Char} (h1 : makeMultisat ((rels.zip outs).map (satTuple no)) = .ok (dirrelCmd ++ r)) :
    rstLatex pf (fuel + 1) (LTree.bundle rels sats nuc).toPTree level = .ok (indentTab (dirrelCmd ++ r) level) := by
  have hol : rels.length = outs.length := hlen.trans hk.length_eq
  obtain ⟨tries, ht0⟩ := forall₂_of_exists htry
  · simp only [LTree.toPTree, toRelations_eq]
    unfold rstLatex
    simp only []
    rw [if_neg (by decide)]
    have hkids : ((rels.zip sats).map (fun x => PTree.node ['S'] [LTree.nucSatNode x.1.1 x.1.2 x.2.toPTree nuc.toPTree])).flatMap ptreeKids =
        (rels.zip sats).map (fun x => LTree.nucSatNode x.1.1 x.1.2 x.2.toPTree nuc.toPTree) := by
      rw [List.flatMap_map, List.map_eq_flatMap]; rfl
    have ht : mapE nodeType ((rels.zip sats).map (fun x => PTree.node ['S'] [LTree.nucSatNode x.1.1 x.1.2 x.2.toPTree nuc.toPTree])) =
        .ok ((rels.zip sats).map (fun _ => ['S'])) := by
      apply mapE_of_forall
      rw [List.forall₂_map_left_iff, List.forall₂_map_right_iff, List.forall₂_same]
      intro k _; rfl
    have e1 : mapE (fun k => rstLatex pf fuel k (level + 1)) ((rels.zip sats).map (fun x => LTree.nucSatNode x.1.1 x.1.2 x.2.toPTree nuc.toPTree)) = .ok tries := by
      apply mapE_of_forall
      rw [List.forall₂_map_left_iff]
      exact ht0
    have hfst : (rels.zip sats).map (fun x => x.1) = rels := by
      rw [List.map_fst_zip]; omega
    have e2 : mapE elemLabel ((rels.zip sats).map (fun x => LTree.nucSatNode x.1.1 x.1.2 x.2.toPTree nuc.toPTree)) = .ok (rels.map Prod.fst) := by
      apply mapE_of_forall
      conv => rhs; rw [← hfst]
      rw [List.map_map, List.forall₂_map_left_iff, List.forall₂_map_right_iff, List.forall₂_same]
      intro x _; rfl
    have e3 : mapE (fun r => mapE elemLabel (ptreeKids r)) ((rels.zip sats).map (fun x => LTree.nucSatNode x.1.1 x.1.2 x.2.toPTree nuc.toPTree)) =
        .ok (rels.map (fun r => sideTypes r.2)) := by
      apply mapE_of_forall
      conv => rhs; rw [← hfst]
      rw [List.map_map, List.forall₂_map_left_iff, List.forall₂_map_right_iff, List.forall₂_same]
      intro x _
      rw [nucSatNode_eq]
      show _ = Except.ok (sideTypes x.1.2)
      cases x.1.2 <;> rfl
    have e4 : mapE (fun r => mapE (fun e => do let k ← elemHead e; rstLatex pf fuel k 0) (ptreeKids r))
        ((rels.zip sats).map (fun x => LTree.nucSatNode x.1.1 x.1.2 x.2.toPTree nuc.toPTree)) = .ok ((rels.zip outs).map (fun x => sideParts x.1.2 x.2 no)) := by
      apply mapE_of_forall
      rw [List.forall₂_map_left_iff, List.forall₂_map_right_iff]
      refine (forall₂_zip (as := rels) hk).imp ?_
      intro x y hxy
      rw [nucSatNode_eq]
      show mapE _ (sideParts x.1.2 _ _) = _
      apply mapE_of_forall
      rw [← hxy.1]
      cases x.1.2
      · exact .cons hn (.cons hxy.2.1 .nil)
      · exact .cons hxy.2.1 (.cons hn .nil)
    rw [ht]
    simp only [bind, Except.bind]
    rw [if_neg (by simp), hkids, e1]
    dsimp only
    rw [if_neg, if_pos trivial, e2]
    · dsimp only
      rw [e3]
      simp only [bind, Except.bind] at e4
      dsimp only
      rw [e4]
      dsimp only
      rw [zip_map_tuple no rels outs hol, h1]
    · intro hh
      obtain ⟨hne, hall⟩ := hh
      have : rels.zip sats ≠ [] := by simpa using hne
      obtain ⟨x, hx⟩ := List.exists_mem_of_ne_nil _ this
      have := hall ['S'] (List.mem_map.2 ⟨x, hx, rfl⟩)
      revert this; decide

theorem rstLatex_bundle {fuel level : Nat} {rels : List (List Char × Bool)} {sats : List LTree} {nuc : LTree} {outs : List (List Char)} {no : List Char}
    (hr : ∀ r ∈ rels, LTree.RelName r.1) (hlen : rels.length = sats.length) (h2 : 2 ≤ rels.length)
    (hside : (∃ r ∈ rels.head?, r.2 = true) ∨ ∀ r ∈ rels, r.2 = false)
    (hk : List.Forall₂ (fun (k : LTree) o => rstLatex pf fuel k.toPTree 0 = .ok o ∧ k.Draws o) sats outs)
    (hn : rstLatex pf fuel nuc.toPTree 0 = .ok no) (dn : nuc.Draws no)
    (htry : ∀ x ∈ rels.zip sats, ∃ o, rstLatex pf fuel (LTree.nucSatNode x.1.1 x.1.2 x.2.toPTree nuc.toPTree) (level + 1) = .ok o) :
    ∃ out, rstLatex pf (fuel + 1) (LTree.bundle rels sats nuc).toPTree level = .ok out ∧ (LTree.bundle rels sats nuc).Draws out := by
  obtain ⟨r, h1, h3⟩ := makeMultisat_ok (fun r h => (hr r h).1) hlen h2 hside (hk.imp fun _ _ h => h.2) dn
  refine ⟨_, rstLatex_bundle_step hlen h2 hk hn htry h1, ?_, ?_⟩
  · rw [flat_indentTab, h3]
  · rw [not_edu_dirrel]
    simp

/-- the export draws exactly the given structure -/
theorem rstLatex_draws (t : LTree) : t.Exportable → ∀ fuel level, t.depth ≤ fuel → ∃ out, rstLatex pf fuel t.toPTree level = .ok out ∧ t.Draws out := by
  induction t using LTree.ind with
  | h1 s =>
    intro he fuel level hf
    match fuel, hf with
    | fuel + 1, _ =>
      refine ⟨LTree.unitText s, ?_, flat_plain (unitText_plain s), ?_⟩
      · simp only [LTree.toPTree]
        unfold rstLatex
        rfl
      · simp only [isEduSegment, decide_eq_true_eq]
        exact ⟨fun _ => ⟨s, rfl⟩, fun _ => he⟩
  | h2 rel kids ih =>
    intro he fuel level hf
    simp only [LTree.Exportable, LTree.exportableAll_iff] at he
    match fuel, hf with
    | fuel + 1, hf =>
      simp only [LTree.depth] at hf
      obtain ⟨outs, ho⟩ := forall₂_of_exists (xs := kids) (R := fun (k : LTree) o => rstLatex pf fuel k.toPTree (level + 1) = .ok o ∧ k.Draws o)
        (fun k hk => ih k hk (he.2.2 k hk) fuel (level + 1) (by have := LTree.depthAll_le hk; omega))
      exact rstLatex_multi he.1 he.2.1 ho
  | h3 rel left sat nuc ihs ihn =>
    intro he fuel level hf
    simp only [LTree.Exportable] at he
    match fuel, hf with
    | fuel + 1, hf =>
      simp only [LTree.depth] at hf
      obtain ⟨so, h1, h2⟩ := ihs he.2.1 fuel (level + 1) (by omega)
      obtain ⟨no, h3, h4⟩ := ihn he.2.2 fuel (level + 1) (by omega)
      simp only [LTree.toPTree]
      exact rstLatex_mono he.1 h1 h3 h2 h4
  | h4 rels sats nuc ihs ihn =>
    intro he fuel level hf
    simp only [LTree.Exportable, LTree.exportableAll_iff] at he
    match fuel, hf with
    | fuel + 2, hf =>
      simp only [LTree.depth] at hf
      obtain ⟨outs, ho⟩ := forall₂_of_exists (xs := sats) (R := fun (k : LTree) o => rstLatex pf (fuel + 1) k.toPTree 0 = .ok o ∧ k.Draws o)
        (fun k hk => ihs k hk (he.2.2.2.2.1 k hk) (fuel + 1) 0 (by have := LTree.depthAll_le hk; omega))
      obtain ⟨no, h3, h4⟩ := ihn he.2.2.2.2.2 (fuel + 1) 0 (by omega)
      refine rstLatex_bundle he.1 he.2.1 he.2.2.1 he.2.2.2.1 ho h3 h4 ?_
      intro x hx
      have hx1 := (List.of_mem_zip hx).1
      have hx2 := (List.of_mem_zip hx).2
      obtain ⟨so, h1, h2⟩ := ihs x.2 hx2 (he.2.2.2.2.1 _ hx2) fuel (level + 1 + 1) (by have := LTree.depthAll_le hx2; omega)
      obtain ⟨no', h5, h6⟩ := ihn he.2.2.2.2.2 fuel (level + 1 + 1) (by omega)
      obtain ⟨o, h7, _⟩ := rstLatex_mono (left := x.1.2) (he.1 x.1 hx1) h1 h5 h2 h6
      exact ⟨o, h7⟩
    | 1, hf => simp only [LTree.depth] at hf; omega

end Dg
