import Verif.Lemmas.RstView

/-! Each event changes the content of the graph as expected. -/

namespace Dg
open Dict
namespace DG

theorem rootAfter_link (ns : String) (evs : List RstEv) (x : Rs3Xml) (p : List Char) : rootAfter ns (evs ++ [.link x p]) = rootAfter ns evs := by
  unfold rootAfter
  rw [declared_append]
  simp [declared]

theorem declOf_link (ns : String) (evs : List RstEv) (x : Rs3Xml) (p : List Char) (m : NodeId) : declOf ns (evs ++ [.link x p]) m = declOf ns evs m := by
  unfold declOf
  rw [declared_append]
  simp [declared]

theorem declOf_some {ns : String} {evs : List RstEv} {m : NodeId} {x : Rs3Xml} (h : declOf ns evs m = some x) : x ∈ declared evs ∧ m = rstId ns x.id := by
  unfold declOf at h
  have h1 := List.find?_some h
  simp only [decide_eq_true_eq] at h1
  exact ⟨List.mem_of_find?_eq_some h, h1.symm⟩

theorem declOf_unknown {ns : String} {rels : Dict (List Char) (List Char)} {evs : List RstEv} {m : NodeId} (h : (facts ns rels evs m).known = false) : declOf ns evs m = none := by
  cases hd : declOf ns evs m with
  | none => rfl
  | some x =>
    obtain ⟨h1, h2⟩ := declOf_some hd
    have := known_declared (ns := ns) (rels := rels) evs x h1
    rw [← h2, h] at this
    cases this

theorem rootAfter_known {ns : String} {rels : Dict (List Char) (List Char)} {evs : List RstEv} {m : NodeId} (h : m = rootAfter ns evs) (hm : m ≠ docRoot ns) : (facts ns rels evs m).known = true := by
  unfold rootAfter at h
  cases hf : (declared evs).find? Rs3Xml.isRoot with
  | none => rw [hf] at h; exact (hm h).elim
  | some x =>
    rw [hf] at h
    rw [h]
    exact known_declared evs x (List.mem_of_find?_eq_some hf)

theorem keys_parentAttrs (ns : String) (rn : List Char) (o : Option (List Char)) : (keys (rstParentAttrs ns rn o)).Nodup ∧ "layers" ∉ keys (rstParentAttrs ns rn o) := by
  have h1 : qual ns "rel_name" ≠ qual ns "segment_type" := fun h => absurd (qual_inj h) (by decide)
  have h2 : ∀ s, "layers" ≠ qual ns s := fun s h => qual_ne_plain (by decide) h.symm
  cases o <;> simp [rstParentAttrs, keys, h1, h2]

theorem find_parentAttrs (ns : String) (rn : List Char) (o : Option (List Char)) (k : String) :
    find (rstParentAttrs ns rn o) k = if k = qual ns "segment_type" then o.map strVal else if k = qual ns "rel_name" then some (strVal rn) else none := by
  have h1 : qual ns "rel_name" ≠ qual ns "segment_type" := fun h => absurd (qual_inj h) (by decide)
  by_cases e1 : k = qual ns "segment_type"
  · subst e1
    cases o <;> simp [rstParentAttrs, find, h1]
  · rw [if_neg e1]
    by_cases e2 : k = qual ns "rel_name"
    · subst e2
      cases o <;> simp [rstParentAttrs]
    · rw [if_neg e2]
      cases o <;> simp [rstParentAttrs, find, Ne.symm e1, Ne.symm e2]

theorem types_span_iff (rels : Dict (List Char) (List Char)) (x : Rs3Xml) {p : List Char} (hp : x.parent = some p) : (rstSegmentTypes rels x).1 = spanS ↔ x.role rels = .span := by
  unfold rstSegmentTypes Rs3Xml.role relTypeOf
  rw [hp]
  simp only
  cases hf : find rels (x.relname.getD []) with
  | none => simp [spanS]
  | some t =>
    simp only [Option.getD_some]
    by_cases h1 : t = ['r', 's', 't']
    · simp [h1, spanS]
    · by_cases h2 : t = ['m', 'u', 'l', 't', 'i', 'n', 'u', 'c']
      · simp [h2, spanS]
      · simp [h1, h2, spanS]

/-- the effect of a link -/
theorem step_link {ns : String} {rels : Dict (List Char) (List Char)} {evs : List RstEv} {g : DG} (h : Sees g (evView ns rels evs)) {x : Rs3Xml} {p : List Char} (he : EvOk ns evs (.link x p)) :
    ∃ g', (RstEv.link x p).exec rels g = .ok g' ∧ Sees g' (evView ns rels (evs ++ [.link x p])) := by
  obtain ⟨hx, hp, hr, hpr⟩ := he
  obtain ⟨rn, hrn⟩ := Option.isSome_iff_exists.1 hr
  have hns : g.ns = ns := h.ns
  have hhas : (evView ns rels evs).has (rstId ns p) ↔ (facts ns rels evs (rstId ns p)).known = true := by
    refine ⟨?_, .inl⟩
    rintro (h | h)
    · exact h
    · exact rootAfter_known h hpr
  have hkeys := keys_parentAttrs ns rn (rstSegmentTypes rels x).2
  -- the parent node
  have step1 : ∃ g1 w1, g.rstParentNode (rstId ns p) (rstSegmentTypes rels x).1 (rstParentAttrs ns rn (rstSegmentTypes rels x).2) = .ok g1 ∧ Sees g1 w1 ∧ w1.has (rstId ns p) ∧ w1.has (rstId ns x.id) ∧
      Sees g1 w1 ∧ ∀ g2, Sees g2 (w1.addEdge (rstEdge ns rels x p)) → Sees g2 (evView ns rels (evs ++ [.link x p])) := by
    have hhx : (evView ns rels evs).has (rstId ns x.id) := .inl (known_declared evs x hx)
    unfold rstParentNode
    by_cases hk : (facts ns rels evs (rstId ns p)).known = true
    · have hpk : has g.nodes (rstId ns p) = true := (has_iff _ _).2 ((h.nodes _).2 (hhas.2 hk))
      rw [if_pos hpk]
      by_cases hs : (rstSegmentTypes rels x).1 = spanS
      · rw [if_neg (show ¬ ((rstSegmentTypes rels x).1 ≠ ['s', 'p', 'a', 'n']) from not_not.2 hs)]
        refine ⟨g, _, rfl, h, hhas.2 hk, hhx, h, ?_⟩
        intro g2 h2
        have hfacts : ∀ m, facts ns rels (evs ++ [.link x p]) m = facts ns rels evs m := by
          intro m
          rw [facts_snoc]
          simp only [factStep]
          split
          · rename_i hm
            subst hm
            rw [if_pos hk, if_neg (show ¬ (ownType rels x ≠ spanS) from not_not.2 hs)]
          · rfl
        refine h2.congr rfl (rootAfter_link ..) rfl rfl ?_ ?_ ?_ ?_
        · intro m
          show _ ∨ _ ↔ _ ∨ _
          rw [hfacts, rootAfter_link]
        · intro m k _
          simp only [evView, View.addEdge, hfacts, rootAfter_link, declOf_link]
        · intro m l
          simp only [evView, View.addEdge, hfacts, rootAfter_link, declOf_link]
        · simp only [evView, View.addEdge, linked_append]
          exact List.Perm.refl _
      · rw [if_pos (show (rstSegmentTypes rels x).1 ≠ ['s', 'p', 'a', 'n'] from hs)]
        obtain ⟨g1, e1, s1⟩ := h.update (hhas.2 hk) hkeys.1 hkeys.2
        refine ⟨g1, _, e1, s1, hhas.2 hk, hhx, s1, ?_⟩
        intro g2 h2
        have hfacts : ∀ m, facts ns rels (evs ++ [.link x p]) m = if m = rstId ns p then ⟨true, (rstSegmentTypes rels x).2.or (facts ns rels evs m).seg, x.relname⟩ else facts ns rels evs m := by
          intro m
          rw [facts_snoc]
          simp only [factStep]
          by_cases hm : rstId ns p = m
          · subst hm
            rw [if_pos rfl, if_pos hk, if_pos (show ownType rels x ≠ spanS from hs), if_pos rfl]
          · rw [if_neg hm, if_neg (Ne.symm hm)]
        have hknown : ∀ m, (facts ns rels (evs ++ [.link x p]) m).known = (facts ns rels evs m).known := by
          intro m
          rw [hfacts]
          split
          · rename_i hm; rw [hm, hk]
          · rfl
        refine h2.congr rfl (rootAfter_link ..) rfl rfl ?_ ?_ ?_ ?_
        · intro m
          show _ ∨ _ ↔ _ ∨ _
          rw [hknown, rootAfter_link]
        · intro m k _
          simp only [evView, View.addEdge, View.update, rootAfter_link, declOf_link, find_parentAttrs]
          rw [hfacts]
          by_cases hm : m = rstId ns p
          · rw [if_pos hm, if_pos hm]
            by_cases e1 : k = qual ns "segment_type"
            · rw [if_pos e1, if_pos e1, if_pos e1]
              cases (rstSegmentTypes rels x).2 <;> simp
            · rw [if_neg e1, if_neg e1, if_neg e1]
              by_cases e2 : k = qual ns "rel_name"
              · rw [if_pos e2, if_pos e2, hrn]; rfl
              · rw [if_neg e2, if_neg e2, if_neg e2]; rfl
          · rw [if_neg hm, if_neg hm]
        · intro m l
          simp only [evView, View.addEdge, View.update, hknown, rootAfter_link, declOf_link]
        · simp only [evView, View.addEdge, View.update, linked_append]
          exact List.Perm.refl _
    · have hkf : (facts ns rels evs (rstId ns p)).known = false := by simpa using hk
      have hpk : ¬ has g.nodes (rstId ns p) = true := by
        rw [has_iff]
        intro hm
        exact hk (hhas.1 ((h.nodes _).1 hm))
      rw [if_neg hpk, hns]
      obtain ⟨g1, e1, s1⟩ := h.node (rstId ns p) (ls := [ns]) (d := rstParentAttrs ns rn (rstSegmentTypes rels x).2) (by simp) hkeys.1
      have e1' : g.addNode (rstId ns p) (.set [.str ns]) (.dict (rstParentAttrs ns rn (rstSegmentTypes rels x).2)) [] = .ok g1 := by
        rw [← e1]
        have := addNode_append g (rstId ns p) [ns] (d := rstParentAttrs ns rn (rstSegmentTypes rels x).2) (at' := []) (by simp [keys]) (by simp [keys]) hkeys.2 (by simp [keys])
        rw [List.append_nil] at this
        exact this
      refine ⟨g1, _, e1', s1, .inr rfl, .inl hhx, s1, ?_⟩
      intro g2 h2
      have hfacts : ∀ m, facts ns rels (evs ++ [.link x p]) m = if m = rstId ns p then ⟨true, (rstSegmentTypes rels x).2, x.relname⟩ else facts ns rels evs m := by
        intro m
        rw [facts_snoc]
        simp only [factStep]
        by_cases hm : rstId ns p = m
        · subst hm
          rw [if_pos rfl, if_neg hk, if_pos rfl]
        · rw [if_neg hm, if_neg (Ne.symm hm)]
      obtain ⟨hrel, hseg⟩ := rel_known evs _ hkf
      have hdecl := declOf_unknown (rels := rels) hkf
      have hnr : rstId ns p ≠ rootAfter ns evs := fun e => by
        have := rootAfter_known (rels := rels) e hpr
        rw [hkf] at this; cases this
      refine h2.congr rfl (rootAfter_link ..) rfl rfl ?_ ?_ ?_ ?_
      · intro m
        show _ ∨ _ ↔ (_ ∨ _) ∨ _
        rw [hfacts, rootAfter_link]
        by_cases hm : m = rstId ns p
        · simp [hm]
        · simp [hm]
      · intro m k _
        simp only [evView, View.addEdge, View.addNode, rootAfter_link, declOf_link, find_parentAttrs]
        rw [hfacts]
        by_cases hm : m = rstId ns p
        · rw [if_pos hm, if_pos hm]
          subst hm
          by_cases e1 : k = qual ns "segment_type"
          · rw [if_pos e1, if_pos e1, if_pos e1, hseg]
            cases (rstSegmentTypes rels x).2 <;> simp
          · rw [if_neg e1, if_neg e1, if_neg e1]
            by_cases e2 : k = qual ns "rel_name"
            · rw [if_pos e2, if_pos e2, hrn]; rfl
            · rw [if_neg e2, if_neg e2, if_neg e2]; rfl
        · rw [if_neg hm, if_neg hm]
      · intro m l
        simp only [evView, View.addEdge, View.addNode, rootAfter_link, declOf_link]
        rw [hfacts]
        by_cases hm : m = rstId ns p
        · subst hm
          rw [if_pos rfl, hdecl]
          simp [hkf, hnr]
        · rw [if_neg hm]
          simp [hm]
      · simp only [evView, View.addEdge, View.addNode, linked_append]
        exact List.Perm.refl _
  obtain ⟨g1, w1, e1, s1, hp1, hx1, _, hfin⟩ := step1
  have hns1 : g1.ns = ns := by
    have : g1.ns = g.ns := by
      unfold rstParentNode at e1
      split at e1
      · split at e1
        · unfold updateNode at e1
          split at e1
          · cases e1
          · cases e1; rfl
        · cases e1; rfl
      · exact (exec_ns_root (i := .node (rstId ns p) [g.ns] (rstParentAttrs ns rn (rstSegmentTypes rels x).2)) (by
          rw [← e1]
          have := addNode_append g (rstId ns p) [g.ns] (d := rstParentAttrs ns rn (rstSegmentTypes rels x).2) (at' := []) (by simp [keys]) (by simp [keys]) hkeys.2 (by simp [keys])
          rw [List.append_nil] at this
          exact this.symm)).1
    rw [this, hns]
  have hkE : (keys (rstEdge ns rels x p).attrs).Nodup := by
    have h1 : qual ns "rel_name" ≠ qual ns "rel_type" := fun h => absurd (qual_inj h) (by decide)
    have h2 : ∀ s, "label" ≠ qual ns s := fun s h => qual_ne_plain (by decide) h.symm
    have h3 : ∀ s, "edge_type" ≠ qual ns s := fun s h => qual_ne_plain (by decide) h.symm
    simp [rstEdge, keys, h1, Ne.symm (h2 _), Ne.symm (h3 _)]
  obtain ⟨g2, e2, s2⟩ := s1.edge hp1 hx1 (ls := [ns]) (d := (rstEdge ns rels x p).attrs) (by simp) hkE
  refine ⟨g2, ?_, hfin g2 s2⟩
  show rstAddParent rels g x p (rstId g.ns x.id) (rstSegmentTypes rels x) = _
  unfold rstAddParent
  rw [hrn]
  simp only [hns]
  rw [e1]
  simp only [bind, Except.bind]
  rw [← e2, hns1]
  have h2 : ∀ s, "label" ≠ qual ns s := fun s h => qual_ne_plain (by decide) h.symm
  have h3 : ∀ s, "edge_type" ≠ qual ns s := fun s h => qual_ne_plain (by decide) h.symm
  have h4 : ∀ s, "layers" ≠ qual ns s := fun s h => qual_ne_plain (by decide) h.symm
  refine (addEdge_append g1 (rstId ns p) (rstId ns x.id) [ns] (by simp [keys]) (by simp [keys, h3]) (by simp [keys, h4]) (by simp [keys])).trans ?_
  have hsp : ((rstSegmentTypes rels x).1 = ['s', 'p', 'a', 'n']) = (x.role rels = .span) := propext (types_span_iff rels x hp)
  simp only [rstEdge, hrn, relTypeOf, Option.getD_some, hsp]
  rfl

end DG
end Dg
