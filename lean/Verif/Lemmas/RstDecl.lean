import Verif.Lemmas.RstStep

/-! The declaration of an element. -/

namespace Dg
open Dict
namespace DG

theorem declOf_fresh {ns : String} {evs : List RstEv} {x : Rs3Xml} (h : x.id ∉ (declared evs).map Rs3Xml.id) : declOf ns evs (rstId ns x.id) = none := by
  unfold declOf
  rw [List.find?_eq_none]
  intro y hy
  simp only [decide_eq_true_eq]
  intro e
  exact h (List.mem_map.2 ⟨y, hy, rstId_inj e⟩)

theorem declOf_decl {ns : String} {evs : List RstEv} {x : Rs3Xml} (h : x.id ∉ (declared evs).map Rs3Xml.id) (m : NodeId) : declOf ns (evs ++ [.decl x]) m = if m = rstId ns x.id then some x else declOf ns evs m := by
  by_cases hm : m = rstId ns x.id
  · rw [if_pos hm, hm]
    have := declOf_fresh (ns := ns) h
    unfold declOf at this ⊢
    rw [declared_append, List.find?_append, this]
    simp [declared]
  · rw [if_neg hm]
    unfold declOf
    rw [declared_append, List.find?_append]
    simp [declared, Ne.symm hm]

theorem rootAfter_decl {ns : String} {evs : List RstEv} {x : Rs3Xml} (h : x.isRoot = false) : rootAfter ns (evs ++ [.decl x]) = rootAfter ns evs := by
  unfold rootAfter
  rw [declared_append, List.find?_append]
  simp [declared, h]

theorem facts_decl {ns : String} {rels : Dict (List Char) (List Char)} (evs : List RstEv) (x : Rs3Xml) (m : NodeId) : facts ns rels (evs ++ [.decl x]) m = if m = rstId ns x.id then
    ⟨true, if x.isSegment then some (ownType rels x) else if x.parent = none then some spanS else if ownType rels x ≠ spanS ∨ (facts ns rels evs m).seg = none then some (ownType rels x) else (facts ns rels evs m).seg, (facts ns rels evs m).rel⟩ else facts ns rels evs m := by
  rw [facts_snoc]
  simp only [factStep]
  by_cases hm : m = rstId ns x.id
  · rw [if_pos hm.symm, if_pos hm]
  · rw [if_neg (Ne.symm hm), if_neg hm]

theorem seg_ne_rel (ns : String) : qual ns "rel_name" ≠ qual ns "segment_type" := fun h => absurd (qual_inj h) (by decide)

theorem step_segment {ns : String} {rels : Dict (List Char) (List Char)} {evs : List RstEv} {g : DG} (h : Sees g (evView ns rels evs)) {x : Rs3Xml} {text : Option (List Char)} (hx : x.kind = .segment text) (he : EvOk ns evs (.decl x)) :
    ∃ g', (RstEv.decl x).exec rels g = .ok g' ∧ Sees g' (evView ns rels (evs ++ [.decl x])) := by
  obtain ⟨hid, hdr, -, -⟩ := he
  have hns : g.ns = ns := h.ns
  have hseg : x.isSegment = true := by unfold Rs3Xml.isSegment; rw [hx]
  have hroot : x.isRoot = false := by simp [Rs3Xml.isRoot, hseg]
  have q1 : qual ns "text" ≠ qual ns "segment_type" := fun h => absurd (qual_inj h) (by decide)
  have q2 : qual ns "text" ≠ qual ns "rel_name" := fun h => absurd (qual_inj h) (by decide)
  have ql : ∀ s, "label" ≠ qual ns s := fun s h => qual_ne_plain (by decide) h.symm
  have qm : ∀ s, "metadata" ≠ qual ns s := fun s h => qual_ne_plain (by decide) h.symm
  have qy : ∀ s, "layers" ≠ qual ns s := fun s h => qual_ne_plain (by decide) h.symm
  let d : Attrs := [("label", strVal (rstSegmentLabel x.id (rstSegmentTypes rels x).1 (sanitizeString text))), (qual ns "text", strVal (sanitizeString text)), (qual ns "segment_type", strVal (rstSegmentTypes rels x).1)]
  have hkd : (keys d).Nodup := by simp [d, keys, ql, q1]
  have hld : "layers" ∉ keys d := by simp [d, keys, qy]
  obtain ⟨g1, e1, s1⟩ := h.node (rstId ns x.id) (ls := [ns, qual ns "segment"]) (d := d) (by simp) hkd
  refine ⟨g1, ?_, ?_⟩
  · rw [← e1]
    simp only [RstEv.exec, hx, hns]
    have := addNode_append g (rstId ns x.id) [ns, qual ns "segment"] (d := d) (at' := []) (by simp [keys]) (by simp [keys]) hld (by simp [keys])
    rw [List.append_nil] at this
    exact this
  · have hnone := declOf_fresh (ns := ns) hid
    refine s1.congr rfl (rootAfter_decl hroot) rfl rfl ?_ ?_ ?_ ?_
    · intro m
      show _ ∨ _ ↔ (_ ∨ _) ∨ _
      rw [facts_decl, rootAfter_decl hroot]
      by_cases hm : m = rstId ns x.id
      · simp [hm]
      · simp [hm]
    · intro m k _
      simp only [evView, View.addNode, rootAfter_decl hroot]
      rw [facts_decl, declOf_decl hid]
      by_cases hm : m = rstId ns x.id
      · subst hm
        rw [if_pos rfl, if_pos rfl, if_pos rfl, hnone, hseg]
        simp only [elemAttrs, hx, if_true]
        by_cases k1 : k = qual ns "segment_type"
        · subst k1
          simp [d, find, ql, q1, ownType]
        · rw [if_neg k1, if_neg k1]
          by_cases k2 : k = qual ns "rel_name"
          · subst k2
            simp [d, find, ql, q2, Ne.symm k1]
          · rw [if_neg k2, if_neg k2]
            by_cases k3 : k = "metadata"
            · subst k3
              simp [d, find, Ne.symm (qm _)]
            · rw [if_neg k3, if_neg k3]
              by_cases k4 : k = "label"
              · subst k4; simp [d, find, ownType]
              · by_cases k5 : k = qual ns "text"
                · subst k5; simp [d, find, ql]
                · simp [d, find, Ne.symm k1, Ne.symm k4, Ne.symm k5]
      · rw [if_neg hm, if_neg hm, if_neg hm]
    · intro m l
      simp only [evView, View.addNode, rootAfter_decl hroot]
      rw [facts_decl, declOf_decl hid]
      by_cases hm : m = rstId ns x.id
      · subst hm
        rw [if_pos rfl, if_pos rfl, hnone]
        simp only [elemLayers, hseg, if_true, List.map_cons, List.map_nil, List.mem_cons, List.not_mem_nil, or_false]
        tauto
      · rw [if_neg hm, if_neg hm]
        simp [hm]
    · simp only [evView, View.addNode, linked_append, linked, List.append_nil]
      exact List.Perm.refl _

/-- the content after the node of the group `x` has been added or updated -/
def groupView (ns : String) (rels : Dict (List Char) (List Char)) (evs : List RstEv) (x : Rs3Xml) : View where
  ns := ns
  root := rootAfter ns evs
  tokens := []
  sentences := []
  has m := (facts ns rels evs m).known = true ∨ m = rootAfter ns evs ∨ m = rstId ns x.id
  attr m k :=
    if k = qual ns "segment_type" then
      (if m = rstId ns x.id then (if ownType rels x ≠ spanS ∨ (facts ns rels evs m).seg = none then some (ownType rels x) else (facts ns rels evs m).seg) else (facts ns rels evs m).seg).map strVal
    else if k = qual ns "rel_name" then (facts ns rels evs m).rel.map strVal
    else if k = "metadata" then (if m = rootAfter ns evs then some (.dict []) else none)
    else match (if m = rstId ns x.id then some x else declOf ns evs m) with
      | some x => find (elemAttrs ns rels x) k
      | none => none
  layer m l :=
    if m = rstId ns x.id then l = .str ns ∨ l = .str (qual ns "group")
    else match declOf ns evs m with
    | some x => l ∈ (elemLayers ns x).map Atom.str
    | none => l = .str ns ∧ ((facts ns rels evs m).known = true ∨ m = rootAfter ns evs)
  edges := linked ns rels evs

theorem find_groupAttrs (ns : String) (id ty : List Char) (k : String) : find (rstGroupAttrs ns id ty) k =
    if k = qual ns "group_type" then some (strVal ty) else if k = "label" then some (.atom (.str (qual ns (qual "group" (qual (String.ofList ty) (String.ofList id)))))) else none := by
  by_cases k1 : k = qual ns "group_type"
  · subst k1; simp [rstGroupAttrs]
  · rw [if_neg k1]
    by_cases k2 : k = "label"
    · subst k2; simp [rstGroupAttrs, find, Ne.symm k1]
    · simp [rstGroupAttrs, find, Ne.symm k1, Ne.symm k2, k2]

theorem step_groupNode {ns : String} {rels : Dict (List Char) (List Char)} {evs : List RstEv} {g : DG} (h : Sees g (evView ns rels evs)) {x : Rs3Xml} {ty : List Char} (hx : x.kind = .group (some ty)) (he : EvOk ns evs (.decl x)) :
    ∃ g', g.rstGroupNode (rstId ns x.id) (rstGroupAttrs ns x.id ty) (rstSegmentTypes rels x).1 = .ok g' ∧ Sees g' (groupView ns rels evs x) := by
  obtain ⟨hid, hdr, -, -⟩ := he
  have hns : g.ns = ns := h.ns
  have hseg : x.isSegment = false := by unfold Rs3Xml.isSegment; rw [hx]
  have q1 : qual ns "group_type" ≠ qual ns "segment_type" := fun h => absurd (qual_inj h) (by decide)
  have q2 : qual ns "group_type" ≠ qual ns "rel_name" := fun h => absurd (qual_inj h) (by decide)
  have ql : ∀ s, "label" ≠ qual ns s := fun s h => qual_ne_plain (by decide) h.symm
  have qm : ∀ s, "metadata" ≠ qual ns s := fun s h => qual_ne_plain (by decide) h.symm
  have qy : ∀ s, "layers" ≠ qual ns s := fun s h => qual_ne_plain (by decide) h.symm
  have hnone := declOf_fresh (ns := ns) hid
  let d : Attrs := rstGroupAttrs ns x.id ty ++ [(qual ns "segment_type", strVal (rstSegmentTypes rels x).1)]
  have hkd : (keys d).Nodup := by simp [d, rstGroupAttrs, keys, ql, q1, Ne.symm (ql _)]
  have hld : "layers" ∉ keys d := by simp [d, rstGroupAttrs, keys, qy]
  have hfd : ∀ k, find d k = if k = qual ns "segment_type" then some (strVal (ownType rels x)) else find (rstGroupAttrs ns x.id ty) k := by
    intro k
    by_cases k1 : k = qual ns "segment_type"
    · subst k1
      rw [if_pos rfl]
      simp [d, rstGroupAttrs, find, ql, q1, ownType]
    · rw [if_neg k1]
      show find (rstGroupAttrs ns x.id ty ++ _) k = _
      rw [find_append]
      simp [find, Ne.symm k1]
  have hfx : ∀ k, find (elemAttrs ns rels x) k = find (rstGroupAttrs ns x.id ty) k := by
    intro k
    simp [elemAttrs, hx]
  have hgk : ∀ k, k = qual ns "segment_type" ∨ k = qual ns "rel_name" ∨ k = "metadata" → find (rstGroupAttrs ns x.id ty) k = none := by
    intro k hk
    rw [find_groupAttrs]
    rcases hk with rfl | rfl | rfl
    · rw [if_neg (Ne.symm q1), if_neg (Ne.symm (ql _))]
    · rw [if_neg (Ne.symm q2), if_neg (Ne.symm (ql _))]
    · rw [if_neg (qm _), if_neg (by decide)]
  unfold rstGroupNode
  cases hf : find g.nodes (rstId ns x.id) with
  | none =>
    simp only [hns]
    obtain ⟨g1, e1, s1⟩ := h.node (rstId ns x.id) (ls := [ns, qual ns "group"]) (d := d) (by simp) hkd
    refine ⟨g1, ?_, ?_⟩
    · rw [← e1]
      have := addNode_append g (rstId ns x.id) [ns, qual ns "group"] (d := d) (at' := []) (by simp [keys]) (by simp [keys]) hld (by simp [keys])
      rw [List.append_nil] at this
      exact this
    · have hnh : ¬ (evView ns rels evs).has (rstId ns x.id) := by
        intro hh
        have := (h.nodes _).2 hh
        obtain ⟨a, ha⟩ := (mem_keys_iff _ _).1 this
        rw [hf] at ha; cases ha
      have hk0 : (facts ns rels evs (rstId ns x.id)).known = false := by
        cases hk : (facts ns rels evs (rstId ns x.id)).known with
        | false => rfl
        | true => exact (hnh (.inl hk)).elim
      have hnr : rstId ns x.id ≠ rootAfter ns evs := fun e => hnh (.inr e)
      obtain ⟨hrel, hsg⟩ := rel_known evs _ hk0
      refine s1.congr rfl rfl rfl rfl ?_ ?_ ?_ (List.Perm.refl _)
      · intro m
        show _ ∨ _ ∨ _ ↔ (_ ∨ _) ∨ _
        rw [or_assoc]
      · intro m k _
        simp only [evView, groupView, View.addNode]
        by_cases hm : m = rstId ns x.id
        · subst hm
          rw [if_pos rfl, if_pos rfl, if_pos rfl, hfd, hsg, hrel, hnone, if_neg hnr]
          simp only [hfx]
          by_cases k1 : k = qual ns "segment_type"
          · rw [if_pos k1, if_pos k1, if_pos k1]; simp
          · rw [if_neg k1, if_neg k1, if_neg k1]
            by_cases k2 : k = qual ns "rel_name"
            · rw [if_pos k2, if_pos k2, hgk k (.inr (.inl k2))]; rfl
            · rw [if_neg k2, if_neg k2]
              by_cases k3 : k = "metadata"
              · rw [if_pos k3, if_pos k3, hgk k (.inr (.inr k3))]; rfl
              · rw [if_neg k3, if_neg k3]
                simp
        · simp only [hm, if_false]
          cases declOf ns evs m <;> rfl
      · intro m l
        simp only [evView, groupView, View.addNode]
        by_cases hm : m = rstId ns x.id
        · subst hm
          rw [if_pos rfl, hnone]
          simp [hk0, hnr]
        · simp only [hm, if_false, false_and, or_false]
          cases declOf ns evs m <;> exact Iff.rfl
  | some a =>
    have hhas : (evView ns rels evs).has (rstId ns x.id) := (h.nodes _).1 (by
      rw [HasNode, mem_keys_iff]; exact ⟨a, hf⟩)
    have hsegA : find a (qual ns "segment_type") = (facts ns rels evs (rstId ns x.id)).seg.map strVal := by
      have := h.attr (rstId ns x.id) (qual ns "segment_type") (Ne.symm (qy _))
      rw [nodeAttr, nodeAttrs, hf] at this
      simpa [evView] using this
    have hcond : (Dict.has a (qual ns "segment_type") = false) = ((facts ns rels evs (rstId ns x.id)).seg = none) := by
      apply propext
      rw [has_false_iff, ← find_eq_none_iff, hsegA]
      cases (facts ns rels evs (rstId ns x.id)).seg <;> simp
    simp only [hns, hcond]
    let d2 : Attrs := if (rstSegmentTypes rels x).1 ≠ ['s', 'p', 'a', 'n'] ∨ (facts ns rels evs (rstId ns x.id)).seg = none then d else rstGroupAttrs ns x.id ty
    have hkd2 : (keys (d2 ++ [("layers", .set ([ns, qual ns "group"].map Atom.str))])).Nodup := by
      simp only [d2]
      split
      · simp [d, rstGroupAttrs, keys, ql, q1, Ne.symm (ql _), Ne.symm (qy _)]
      · simp [rstGroupAttrs, keys, Ne.symm (ql _), Ne.symm (qy _)]
    obtain ⟨g1, e1, s1⟩ := h.updateLayers hhas (d := d2) (ls := [ns, qual ns "group"]) hkd2 (List.perm_append_singleton _ _)
    refine ⟨g1, e1, ?_⟩
    have hfd2 : ∀ k, find d2 k = if k = qual ns "segment_type" then (if ownType rels x ≠ spanS ∨ (facts ns rels evs (rstId ns x.id)).seg = none then some (strVal (ownType rels x)) else none) else find (rstGroupAttrs ns x.id ty) k := by
      intro k
      simp only [d2]
      by_cases hc : (rstSegmentTypes rels x).1 ≠ ['s', 'p', 'a', 'n'] ∨ (facts ns rels evs (rstId ns x.id)).seg = none
      · rw [if_pos hc, hfd, if_pos (show ownType rels x ≠ spanS ∨ _ from hc)]
      · rw [if_neg hc, if_neg (show ¬ (ownType rels x ≠ spanS ∨ _) from hc)]
        by_cases k1 : k = qual ns "segment_type"
        · rw [if_pos k1, hgk k (.inl k1)]
        · rw [if_neg k1]
    refine s1.congr rfl rfl rfl rfl ?_ ?_ ?_ (List.Perm.refl _)
    · intro m
      show _ ∨ _ ∨ _ ↔ _ ∨ _
      constructor
      · rintro (h | h | h)
        · exact .inl h
        · exact .inr h
        · subst h; exact hhas
      · rintro (h | h)
        · exact .inl h
        · exact .inr (.inl h)
    · intro m k _
      simp only [evView, groupView, View.update, View.setLayers]
      by_cases hm : m = rstId ns x.id
      · subst hm
        rw [if_pos rfl, if_pos rfl, if_pos rfl, hfd2, hnone]
        simp only [hfx]
        by_cases k1 : k = qual ns "segment_type"
        · rw [if_pos k1, if_pos k1, if_pos k1]
          split
          · simp
          · simp
        · rw [if_neg k1, if_neg k1, if_neg k1]
          by_cases k2 : k = qual ns "rel_name"
          · rw [if_pos k2, if_pos k2, hgk k (.inr (.inl k2))]; rfl
          · rw [if_neg k2, if_neg k2]
            by_cases k3 : k = "metadata"
            · rw [if_pos k3, if_pos k3, hgk k (.inr (.inr k3))]; rfl
            · rw [if_neg k3, if_neg k3]
              simp
      · simp only [hm, if_false]
        cases declOf ns evs m <;> rfl
    · intro m l
      simp only [evView, groupView, View.update, View.setLayers]
      by_cases hm : m = rstId ns x.id
      · rw [if_pos hm, if_pos hm]; simp
      · simp only [hm, if_false]
        cases declOf ns evs m <;> exact Iff.rfl

/-- the declaration of an element -/
theorem step_decl {ns : String} {rels : Dict (List Char) (List Char)} {evs : List RstEv} {g : DG} (h : Sees g (evView ns rels evs)) (hevs : EvsOk ns evs) {x : Rs3Xml} (he : EvOk ns evs (.decl x)) :
    ∃ g', (RstEv.decl x).exec rels g = .ok g' ∧ Sees g' (evView ns rels (evs ++ [.decl x])) := by
  cases hx : x.kind with
  | segment text => exact step_segment h hx he
  | group o =>
    cases o with
    | none => exact (he.2.2.1 hx).elim
    | some ty =>
      obtain ⟨g1, e1, s1⟩ := step_groupNode h hx he
      obtain ⟨hid, hdr, -, hrt⟩ := he
      have hns : g.ns = ns := h.ns
      have hseg : x.isSegment = false := by unfold Rs3Xml.isSegment; rw [hx]
      simp only [RstEv.exec, hx, hns, e1, bind, Except.bind]
      by_cases hp : x.parent = none
      · rw [if_pos hp]
        have hxr : x.isRoot = true := by simp [Rs3Xml.isRoot, hseg, hp]
        have hold : rootAfter ns evs = docRoot ns := by
          unfold rootAfter
          rw [List.find?_eq_none.2 (by simpa using hrt hxr)]
        have hnew : rootAfter ns (evs ++ [.decl x]) = rstId ns x.id := by
          unfold rootAfter
          rw [declared_append, List.find?_append, List.find?_eq_none.2 (by simpa using hrt hxr)]
          simp [declared, hxr]
        obtain ⟨hk0, hed, hd0⟩ := docRoot_unknown (rels := rels) hevs
        have hown : ownType rels x = spanS := by simp [ownType, rstSegmentTypes, hp, hx, spanS]
        have s2 := s1.withRoot (rstId ns x.id)
        obtain ⟨g3, e3, s3⟩ := s2.updateLayers (n := rstId ns x.id) (.inr (.inr rfl)) (d := [(qual ns "segment_type", strVal ['s', 'p', 'a', 'n'])]) (ls := [ns, qual ns "root"])
          (d' := [("layers", .set [.str ns, .str (qual ns "root")]), (qual ns "segment_type", strVal ['s', 'p', 'a', 'n'])]) (by
            have : "layers" ≠ qual ns "segment_type" := fun h => qual_ne_plain (by decide) h.symm
            simp [keys, this]) (List.Perm.refl _)
        have hmeta : g3.getAttr (docRoot ns) "metadata" = .ok (.dict []) := by
          rw [getAttr_ok]
          rw [s3.attr _ _ (by decide)]
          simp [View.setLayers, View.update, groupView, hold, Ne.symm hdr, show "metadata" ≠ qual ns "segment_type" from fun h => qual_ne_plain (by decide) h.symm, show "metadata" ≠ qual ns "rel_name" from fun h => qual_ne_plain (by decide) h.symm]
        obtain ⟨g4, e4, s4⟩ := s3.setAttr (n := rstId ns x.id) (.inr (.inr rfl)) (k := "metadata") (.dict []) (by decide)
        obtain ⟨g5, e5, s5⟩ := s4.remove (n := docRoot ns) (.inr (.inl hold.symm)) (fun e he => hed e he)
        refine ⟨g5, ?_, ?_⟩
        · unfold rstSetRoot
          have key : ∀ q, q = ns → { g1 with root := rstId ns x.id }.updateNode (rstId ns x.id) [("layers", .set [.str q, .str (qual q "root")]), (qual q "segment_type", strVal ['s', 'p', 'a', 'n'])] = .ok g3 := by
            rintro _ rfl; exact e3
          have hr1 : g1.root = docRoot ns := s1.root.trans hold
          simp only [bind, Except.bind]
          rw [key g1.ns s1.ns, hr1]
          simp only
          rw [hmeta]
          simp only
          rw [e4]
          exact e5
        · refine s5.congr rfl hnew rfl rfl ?_ ?_ ?_ ?_
          · intro m
            show _ ∨ _ ↔ (_ ∨ _ ∨ _) ∧ _
            rw [facts_decl, hnew, hold]
            by_cases hm : m = rstId ns x.id
            · simp [hm, hdr]
            · by_cases hm2 : m = docRoot ns
              · simp [hm2, Ne.symm hdr, hk0]
              · simp [hm, hm2]
          · intro m k _
            simp only [evView, groupView, View.update, View.setLayers, View.remove, hnew, hold]
            rw [facts_decl, declOf_decl hid]
            by_cases hm : m = rstId ns x.id
            · subst hm
              have qm : ∀ s, "metadata" ≠ qual ns s := fun s h => qual_ne_plain (by decide) h.symm
              simp only [if_true, hdr, if_false, hseg, hp, find_cons, find_nil]
              by_cases k1 : k = qual ns "segment_type"
              · subst k1
                simp [qm, spanS]
              · by_cases k2 : k = qual ns "rel_name"
                · subst k2
                  simp [qm, k1, Ne.symm k1]
                · by_cases k3 : k = "metadata"
                  · subst k3; simp [qm]
                  · simp [k1, k2, k3, Ne.symm k1, Ne.symm k3]
            · by_cases hm2 : m = docRoot ns
              · subst hm2
                simp [hm, hd0, rel_known evs _ hk0]
              · simp only [hm, hm2, if_false]
                cases declOf ns evs m <;> rfl
          · intro m l
            simp only [evView, groupView, View.update, View.setLayers, View.remove, hnew, hold]
            rw [facts_decl, declOf_decl hid]
            by_cases hm : m = rstId ns x.id
            · subst hm
              simp [hdr, elemLayers, hseg, hp]
            · by_cases hm2 : m = docRoot ns
              · subst hm2
                simp [hm, hd0, hk0]
              · simp only [hm, hm2, if_false, or_false, ne_eq, not_false_eq_true, and_true]
                cases declOf ns evs m <;> simp
          · simp only [evView, groupView, View.update, View.setLayers, View.remove, linked_append, linked, List.append_nil]
            exact List.Perm.refl _
      · rw [if_neg hp]
        have hxr : x.isRoot = false := by
          cases hq : x.parent with
          | none => exact (hp hq).elim
          | some q => simp [Rs3Xml.isRoot, hq]
        refine ⟨g1, rfl, ?_⟩
        refine s1.congr rfl (rootAfter_decl hxr) rfl rfl ?_ ?_ ?_ ?_
        · intro m
          show _ ∨ _ ↔ _ ∨ _ ∨ _
          rw [facts_decl, rootAfter_decl hxr]
          by_cases hm : m = rstId ns x.id
          · simp [hm]
          · simp [hm]
        · intro m k _
          simp only [evView, groupView, rootAfter_decl hxr]
          rw [facts_decl, declOf_decl hid]
          by_cases hm : m = rstId ns x.id
          · subst hm
            rw [if_pos rfl, if_pos rfl, if_pos rfl, hseg]
            simp [hp]
          · simp only [hm, if_false]
            cases declOf ns evs m <;> rfl
        · intro m l
          simp only [evView, groupView, rootAfter_decl hxr]
          rw [facts_decl, declOf_decl hid]
          by_cases hm : m = rstId ns x.id
          · subst hm
            rw [if_pos rfl, if_pos rfl, if_pos rfl]
            simp [elemLayers, hseg, hp]
          · simp only [hm, if_false]
            cases declOf ns evs m <;> exact Iff.rfl
        · simp only [evView, groupView, linked_append, linked, List.append_nil]
          exact List.Perm.refl _

end DG
end Dg
