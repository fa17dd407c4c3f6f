import Verif.Props.C57
import Verif.Props.C08
import Verif.Props.C16
import Verif.Props.C20
import Verif.Props.C43
import Verif.Spec.RstRel

/-! The tree of an .rs3 file and the spans of its graph (C58). -/

namespace Dg
open Dict
namespace DG

theorem under_trans {doc : Rs3Doc} {x y z : Rs3Xml} (h1 : Under doc z y) (h2 : Under doc y x) : Under doc z x := by
  induction h2 with
  | refl => exact h1
  | child hy hc _ ih => exact .child hy hc (ih h1)

theorem mem_tokens {doc : Rs3Doc} {t : RstTok} (ht : t ∈ Rs3Doc.tokens doc) : t.seg ∈ doc.elems ∧ t ∈ segTokens t.seg := by
  obtain ⟨x, hx, hm⟩ := List.mem_flatMap.1 ht
  have : t.seg = x := by
    unfold segTokens at hm
    obtain ⟨w, _, rfl⟩ := List.mem_map.1 hm
    rfl
  subst this
  exact ⟨(List.mem_filter.1 hx).1, hm⟩

theorem tokens_of_seg {doc : Rs3Doc} {x : Rs3Xml} (hx : x ∈ doc.elems) {t : RstTok} (ht : t ∈ segTokens x) : t ∈ Rs3Doc.tokens doc ∧ t.seg = x := by
  have hs : t.seg = x := by
    unfold segTokens at ht
    obtain ⟨w, _, rfl⟩ := List.mem_map.1 ht
    rfl
  refine ⟨List.mem_flatMap.2 ⟨x, List.mem_filter.2 ⟨hx, ?_⟩, ht⟩, hs⟩
  unfold segTokens Rs3Xml.text at ht
  unfold Rs3Xml.isSegment
  cases hk : x.kind with
  | segment _ => rfl
  | group _ => rw [hk] at ht; simp [splitWs, splitWsAux] at ht

section
variable {name ns : String} {doc : Rs3Doc} {g : DG} {edus : List NodeId}

theorem rst_edge_iff (h : doc.ReadOk) (hr : rstRead name ns true false doc = .ok (g, edus)) (u v : NodeId) (a : Attrs) (hE : g.EdgeWith u v a) :
    (∃ y ∈ doc.elems, ∃ x ∈ doc.elems, ChildOf y x ∧ u = rstNode ns x ∧ v = rstNode ns y ∧ MatchesArgs a [ns] (rstEdge ns (extractRelationtypes doc.rels) y x.id).attrs) ∨
    ∃ t ∈ Rs3Doc.tokens doc, u = rstNode ns t.seg ∧ v = t.node ns ∧ MatchesArgs a (tokEdge ns t).layers (tokEdge ns t).attrs := by
  have he := c57_edges name ns true false doc h g edus hr
  obtain ⟨e, hm, h1, h2, h3⟩ := he.sound _ _ _ hE
  unfold rstDocEdges at hm
  rw [Bool.and_false, if_neg (show ¬ (false = true) by decide), List.append_nil, List.mem_append] at hm
  rcases hm with hm | hm
  · left
    obtain ⟨y, hy, hy'⟩ := List.mem_filterMap.1 hm
    cases hp : y.parent with
    | none => rw [hp] at hy'; cases hy'
    | some p =>
      rw [hp] at hy'
      cases hy'
      obtain ⟨x, hx, rfl⟩ := h.parent y hy p hp
      exact ⟨y, hy, x, hx, hp, h1.symm, h2.symm, h3⟩
  · right
    rw [if_pos (Eq.refl true)] at hm
    obtain ⟨t, ht, rfl⟩ := List.mem_map.1 hm
    exact ⟨t, ht, h1.symm, h2.symm, h3⟩

theorem rst_edge_elem (h : doc.ReadOk) (hr : rstRead name ns true false doc = .ok (g, edus)) {y x : Rs3Xml} (hy : y ∈ doc.elems) (hc : ChildOf y x) :
    ∃ a, g.EdgeWith (rstNode ns x) (rstNode ns y) a ∧ MatchesArgs a [ns] (rstEdge ns (extractRelationtypes doc.rels) y x.id).attrs := by
  have he := c57_edges name ns true false doc h g edus hr
  refine he.complete (rstEdge ns (extractRelationtypes doc.rels) y x.id) ?_
  unfold rstDocEdges elemEdges
  simp only [List.mem_append]
  left; left
  exact List.mem_filterMap.2 ⟨y, hy, by rw [show y.parent = some x.id from hc]; rfl⟩

theorem rst_edge_tok (h : doc.ReadOk) (hr : rstRead name ns true false doc = .ok (g, edus)) {t : RstTok} (ht : t ∈ Rs3Doc.tokens doc) :
    ∃ a, g.EdgeWith (rstNode ns t.seg) (t.node ns) a ∧ MatchesArgs a (tokEdge ns t).layers (tokEdge ns t).attrs := by
  have he := c57_edges name ns true false doc h g edus hr
  refine he.complete (tokEdge ns t) ?_
  unfold rstDocEdges
  simp only [List.mem_append, if_true]
  left; right
  exact List.mem_map.2 ⟨t, ht, rfl⟩

theorem rstEdge_type (ns : String) (rels : Dict (List Char) (List Char)) (y : Rs3Xml) (p : List Char) :
    find (rstEdge ns rels y p).attrs "edge_type" = some (.atom (.str (if y.role rels = .span then "spans" else "dominates"))) := by
  have q : ∀ s, qual ns s ≠ "edge_type" := fun s h => qual_ne_plain (by decide) h
  simp [rstEdge, find, q]

theorem rst_spanEdge (h : doc.ReadOk) (hac : RstAcyclic doc) (hr : rstRead name ns true false doc = .ok (g, edus)) (u v : NodeId) :
    g.SpanEdge u v ↔ (∃ y ∈ doc.elems, ∃ x ∈ doc.elems, ChildOf y x ∧ u = rstNode ns x ∧ v = rstNode ns y) ∨ ∃ t ∈ Rs3Doc.tokens doc, u = rstNode ns t.seg ∧ v = t.node ns := by
  constructor
  · rintro ⟨_, k, a, _, hE, _⟩
    rcases rst_edge_iff h hr u v a ⟨k, hE⟩ with ⟨y, hy, x, hx, hc, h1, h2, _⟩ | ⟨t, ht, h1, h2, _⟩
    · exact .inl ⟨y, hy, x, hx, hc, h1, h2⟩
    · exact .inr ⟨t, ht, h1, h2⟩
  · rintro (⟨y, hy, x, hx, hc, rfl, rfl⟩ | ⟨t, ht, rfl, rfl⟩)
    · obtain ⟨a, ⟨k, hE⟩, hm⟩ := rst_edge_elem h hr hy hc
      refine ⟨?_, k, a, _, hE, (hm.1 "edge_type" (by decide)).trans (rstEdge_type ..), ?_⟩
      · intro e
        have := List.inj_on_of_nodup_map h.unique hx hy (rstId_inj e)
        subst this
        exact hac x hx x hx hc (.refl x)
      · split <;> decide
    · obtain ⟨a, ⟨k, hE⟩, hm⟩ := rst_edge_tok h hr ht
      refine ⟨?_, k, a, _, hE, (hm.1 "edge_type" (by decide)).trans rfl, by decide⟩
      intro e
      exact tok_node_ne (h.colon _ (mem_tokens ht).1) e.symm

theorem rst_spans_elem (h : doc.ReadOk) (hac : RstAcyclic doc) (hr : rstRead name ns true false doc = .ok (g, edus)) {u v : NodeId} (hs : g.Spans u v) :
    ∀ x ∈ doc.elems, u = rstNode ns x → (∀ y ∈ doc.elems, v = rstNode ns y → Under doc y x) ∧ ∀ t ∈ Rs3Doc.tokens doc, v = t.node ns → Under doc t.seg x := by
  have htn : ((Rs3Doc.tokens doc).map (RstTok.node ns)).Nodup := tokens_nodup ns (h.unique.sublist (List.filter_sublist.map _))
  induction hs with
  | refl u =>
    rintro x hx rfl
    refine ⟨fun y hy e => ?_, fun t ht e => (tok_node_ne (h.colon x hx) e.symm).elim⟩
    rw [List.inj_on_of_nodup_map h.unique hx hy (rstId_inj e)]
    exact .refl y
  | @step u v w he hs ih =>
    rintro x hx rfl
    rcases (rst_spanEdge h hac hr _ _).1 he with ⟨y, hy, x', hx', hc, e1, rfl⟩ | ⟨t, ht, e1, rfl⟩
    · obtain rfl := List.inj_on_of_nodup_map h.unique hx hx' (rstId_inj e1)
      obtain ⟨i1, i2⟩ := ih y hy rfl
      exact ⟨fun z hz e => .child hy hc (i1 z hz e), fun t ht e => .child hy hc (i2 t ht e)⟩
    · obtain rfl := List.inj_on_of_nodup_map h.unique hx (mem_tokens ht).1 (rstId_inj e1)
      have hw : w = t.node ns := by
        cases hs with
        | refl => rfl
        | step he' _ =>
          rcases (rst_spanEdge h hac hr _ _).1 he' with ⟨_, _, x', hx', _, e1, _⟩ | ⟨t', ht', e1, _⟩
          · exact (tok_node_ne (h.colon x' hx') e1).elim
          · exact (tok_node_ne (h.colon _ (mem_tokens ht').1) e1).elim
      subst hw
      refine ⟨fun y hy e => (tok_node_ne (h.colon y hy) e).elim, fun t' ht' e => ?_⟩
      rw [List.inj_on_of_nodup_map htn ht ht' e]
      exact .refl _

theorem rst_spans_of_under (h : doc.ReadOk) (hac : RstAcyclic doc) (hr : rstRead name ns true false doc = .ok (g, edus)) {y x : Rs3Xml} (hx : x ∈ doc.elems) (hu : Under doc y x) : g.Spans (rstNode ns x) (rstNode ns y) := by
  induction hu with
  | refl => exact .refl _
  | child hy hc _ ih => exact .step ((rst_spanEdge h hac hr _ _).2 (.inl ⟨_, hy, _, hx, hc, rfl, rfl⟩)) (ih hy)

theorem rst_acyclic (h : doc.ReadOk) (hac : RstAcyclic doc) (hr : rstRead name ns true false doc = .ok (g, edus)) : g.SpanAcyclic := by
  intro u v he hs
  rcases (rst_spanEdge h hac hr _ _).1 he with ⟨y, hy, x, hx, hc, rfl, rfl⟩ | ⟨t, ht, rfl, rfl⟩
  · exact hac x hx y hy hc ((rst_spans_elem h hac hr hs y hy rfl).1 x hx rfl)
  · generalize hm : t.node ns = m at hs
    generalize hm' : rstNode ns t.seg = m' at hs
    cases hs with
    | refl => exact tok_node_ne (h.colon _ (mem_tokens ht).1) (hm.trans hm'.symm)
    | step he' _ =>
      rcases (rst_spanEdge h hac hr _ _).1 he' with ⟨_, _, x', hx', _, e1, _⟩ | ⟨t', ht', e1, _⟩
      · exact tok_node_ne (h.colon x' hx') (hm.trans e1)
      · exact tok_node_ne (h.colon _ (mem_tokens ht').1) (hm.trans e1)

theorem rst_unique_parent (h : doc.ReadOk) (hr : rstRead name ns true false doc = .ok (g, edus)) : g.UniqueSpanParent := by
  obtain ⟨h1, h2, h3, h4⟩ := c57_tree name ns true doc h g edus hr
  have hone : ∀ u v k a k' a', g.edgeCount u v = 1 → g.edgeAttrs u v k = some a → g.edgeAttrs u v k' = some a' → k = k' := by
    intro u v k a k' a' hc e e'
    unfold edgeCount at hc
    unfold edgeAttrs at e e'
    cases hk : g.kd? u v with
    | none => rw [hk] at e; cases e
    | some kd =>
      rw [hk] at hc e e'
      rcases kd with _ | ⟨p, _ | ⟨q, kd⟩⟩
      · simp at hc
      · obtain ⟨q, b⟩ := p
        simp only [Option.bind_some, find] at e e'
        split at e
        · split at e'
          · simp_all
          · cases e'
        · cases e
      · simp at hc
  intro v u k a u' k' a' e f e' f'
  rcases rst_edge_iff h hr u v a ⟨k, e⟩ with ⟨y, hy, x, hx, hc, rfl, rfl, _⟩ | ⟨t, ht, rfl, rfl, _⟩
  · obtain ⟨p, hp, e2⟩ := h1 y hy u' a' ⟨k', e'⟩
    rw [show y.parent = some x.id from hc] at hp
    cases hp
    subst e2
    exact ⟨rfl, hone _ _ _ _ _ _ (h2 y hy x.id hc) e e'⟩
  · have e2 := h3 t ht u' a' ⟨k', e'⟩
    subst e2
    exact ⟨rfl, hone _ _ _ _ _ _ (h4 rfl t ht) e e'⟩

theorem rst_isToken (h : doc.ReadOk) (hr : rstRead name ns true false doc = .ok (g, edus)) (m : NodeId) : g.IsToken m ↔ ∃ t ∈ Rs3Doc.tokens doc, m = t.node ns := by
  obtain ⟨s, _⟩ := rstRead_content h hr
  have hns : g.ns = ns := s.ns.trans rfl
  constructor
  · rintro ⟨v, hv⟩
    rw [hns] at hv
    rw [show ns ++ (":" ++ "token") = qual ns "token" from rfl] at hv
    by_contra hc
    rw [s.attr _ _ (fun h => qual_ne_plain (by decide) h)] at hv
    have hf : (Rs3Doc.tokens doc).find? (fun t => decide (t.node ns = m)) = none := by
      rw [List.find?_eq_none]
      intro t ht
      simp only [decide_eq_true_eq]
      exact fun e => hc ⟨t, ht, e.symm⟩
    simp only [fullView, if_true, tokView] at hv
    rw [hf] at hv
    simp only [docView, evView] at hv
    have q1 : qual ns "token" ≠ qual ns "segment_type" := fun h => absurd (qual_inj h) (by decide)
    have q2 : qual ns "token" ≠ qual ns "rel_name" := fun h => absurd (qual_inj h) (by decide)
    have q3 : qual ns "token" ≠ qual ns "text" := fun h => absurd (qual_inj h) (by decide)
    have q4 : qual ns "token" ≠ qual ns "group_type" := fun h => absurd (qual_inj h) (by decide)
    have q5 : ∀ s, qual ns s ≠ "metadata" := fun s h => qual_ne_plain (by decide) h
    have q6 : ∀ s, qual ns s ≠ "label" := fun s h => qual_ne_plain (by decide) h
    rw [if_neg q1, if_neg q2, if_neg (q5 _)] at hv
    split at hv
    · rename_i x _
      unfold elemAttrs at hv
      cases hk : x.kind with
      | segment t => rw [hk] at hv; simp [find, q3.symm, Ne.symm (q6 _)] at hv
      | group t =>
        rw [hk] at hv
        cases t with
        | none => simp [find, Ne.symm (q6 _), q4.symm, rstGroupAttrs] at hv
        | some t => simp [find, Ne.symm (q6 _), q4.symm, rstGroupAttrs] at hv
    · cases hv
  · rintro ⟨t, ht, rfl⟩
    refine ⟨strVal t.word, ?_⟩
    rw [hns]
    exact ((c57_tokens name ns false doc h g edus hr).2.2.2.1 t ht).1

theorem rst_typed (h : doc.ReadOk) (hr : rstRead name ns true false doc = .ok (g, edus)) : g.Typed := by
  intro u v k a hE
  rcases rst_edge_iff h hr u v a ⟨k, hE⟩ with ⟨y, _, x, _, _, _, _, hm⟩ | ⟨t, _, _, _, hm⟩
  · exact ⟨_, (hm.1 "edge_type" (by decide)).trans (rstEdge_type ..)⟩
  · exact ⟨_, (hm.1 "edge_type" (by decide)).trans rfl⟩

/-- get_span of an element -/
theorem rst_getSpan (h : doc.ReadOk) (hac : RstAcyclic doc) (hr : rstRead name ns true false doc = .ok (g, edus)) {x : Rs3Xml} (hx : x ∈ doc.elems) {fuel : Nat} (hfuel : g.nodes.length ≤ fuel) :
    ∃ span, g.getSpan fuel (rstNode ns x) = .ok span ∧ CoversTokens ns doc x span := by
  obtain ⟨s, _⟩ := rstRead_content h hr
  have hn : g.HasNode (rstNode ns x) := (c57_nodes name ns true false doc h g edus hr _).2 (.inl ⟨x, hx, rfl⟩)
  obtain ⟨span, hs⟩ := getSpan_total s.inv.wf (rst_acyclic h hac hr) fuel (rstNode ns x) (by have := spanRank_lt_length hn; omega) hn (fun u v k a _ _ hE => rst_typed h hr u v k a hE)
  refine ⟨span, hs, getSpan_nodup s.inv.wf (rst_acyclic h hac hr) (rst_unique_parent h hr) fuel _ span hs, getSpan_sorted hs, ?_⟩
  intro m
  rw [getSpan_mem s.inv.wf fuel _ span hs, rst_isToken h hr]
  constructor
  · rintro ⟨⟨t, ht, rfl⟩, hsp⟩
    exact ⟨t, ht, (rst_spans_elem h hac hr hsp x hx rfl).2 t ht rfl, rfl⟩
  · rintro ⟨t, ht, hu, rfl⟩
    refine ⟨⟨t, ht, rfl⟩, ?_⟩
    have h1 := rst_spans_of_under h hac hr hx hu
    have h2 : g.SpanEdge (rstNode ns t.seg) (t.node ns) := (rst_spanEdge h hac hr _ _).2 (.inr ⟨t, ht, rfl, rfl⟩)
    exact h1.trans (.step h2 (.refl _))

/-- the one edge from an element to its child -/
theorem rst_keyDict (h : doc.ReadOk) (hr : rstRead name ns true false doc = .ok (g, edus)) {y x : Rs3Xml} (hy : y ∈ doc.elems) (hc : ChildOf y x) :
    ∃ k a, g.keyDict (rstNode ns x) (rstNode ns y) = [(k, a)] ∧ MatchesArgs a [ns] (rstEdge ns (extractRelationtypes doc.rels) y x.id).attrs := by
  obtain ⟨a, ⟨k, hE⟩, hm⟩ := rst_edge_elem h hr hy hc
  have hone := (c57_tree name ns true doc h g edus hr).2.1 y hy x.id hc
  have hkd : g.keyDict (rstNode ns x) (rstNode ns y) = (g.kd? (rstNode ns x) (rstNode ns y)).getD [] := by
    unfold keyDict kd?
    cases find g.adj (rstNode ns x) <;> rfl
  refine ⟨k, a, ?_, hm⟩
  rw [hkd]
  change g.edgeCount (rstNode ns x) (rstNode ns y) = 1 at hone
  unfold edgeCount at hone
  unfold edgeAttrs at hE
  cases hk : g.kd? (rstNode ns x) (rstNode ns y) with
  | none => rw [hk] at hE; cases hE
  | some kd =>
    rw [hk] at hone hE
    rcases kd with _ | ⟨⟨q, b⟩, _ | ⟨p, kd⟩⟩
    · simp at hone
    · simp only [Option.bind_some, find] at hE
      split at hE
      · rename_i e
        cases hE
        rw [e]; rfl
      · cases hE
    · simp at hone

end

/-- what a child adds to the description of the relations -/
def applyRole (rels : Dict (List Char) (List Char)) (sp : Rs3Xml → List NodeId) (r : RstRel) (y : Rs3Xml) : RstRel :=
  match y.role rels with
  | .span => { r with nucleus := some (rstNode "rst" y, sp y) }
  | .satellite => { r with satellites := r.satellites ++ [(rstNode "rst" y, strVal (y.relname.getD []), sp y)] }
  | .nucleus => { r with multinuc := r.multinuc ++ [(rstNode "rst" y, strVal (y.relname.getD []), sp y)] }

theorem applyRole_fold (rels : Dict (List Char) (List Char)) (sp : Rs3Xml → List NodeId) (ys : List Rs3Xml) (r : RstRel) :
    ys.foldl (applyRole rels sp) r = ⟨r.tokens, ((ys.filter (fun y => decide (y.role rels = .span))).getLast?.map (fun y => (rstNode "rst" y, sp y))).or r.nucleus,
      r.satellites ++ (ys.filter (fun y => decide (y.role rels = .satellite))).map (fun y => (rstNode "rst" y, strVal (y.relname.getD []), sp y)),
      r.multinuc ++ (ys.filter (fun y => decide (y.role rels = .nucleus))).map (fun y => (rstNode "rst" y, strVal (y.relname.getD []), sp y))⟩ := by
  induction ys generalizing r with
  | nil => simp
  | cons y ys ih =>
    rw [List.foldl_cons, ih]
    unfold applyRole
    cases hy : y.role rels with
    | span =>
      simp only [List.filter_cons, hy, decide_true, if_true, reduceCtorEq, decide_false, Bool.false_eq_true, if_false]
      congr 1
      cases hl : (ys.filter (fun y => decide (y.role rels = .span))) with
      | nil => simp
      | cons z zs => simp [List.getLast?_cons]
    | satellite => simp [hy, List.append_assoc]
    | nucleus => simp [hy, List.append_assoc]

theorem rstEdge_relType (rels : Dict (List Char) (List Char)) (y : Rs3Xml) (p : List Char) :
    find (rstEdge "rst" rels y p).attrs "rst:rel_type" = some (strVal ((Dict.find rels (y.relname.getD [])).getD [])) ∧
    find (rstEdge "rst" rels y p).attrs "rst:rel_name" = some (strVal (y.relname.getD [])) := by
  have q1 : qual "rst" "rel_name" = "rst:rel_name" := by decide
  have q2 : qual "rst" "rel_type" = "rst:rel_type" := by decide
  constructor <;> simp [rstEdge, find, q1, q2]

theorem featAt_eq {a : Attrs} {k : String} {v : Val} (h : find a k = some v) : featAt a k = .ok v := by
  unfold featAt; rw [h]

theorem strVal_lit (s : List Char) (t : String) (h : t.toList = s) : strVal s = .atom (.str t) := by
  unfold strVal
  rw [← h, String.ofList_toList]

theorem rstRelEdge_eq {fuel : Nat} {g : DG} {doc : Rs3Doc} {y x : Rs3Xml} {a : Attrs} (hm : MatchesArgs a ["rst"] (rstEdge "rst" (extractRelationtypes doc.rels) y x.id).attrs)
    {sp : Rs3Xml → List NodeId} (hs : g.getSpan fuel (rstNode "rst" y) = .ok (sp y)) (r : RstRel) :
    rstRelEdge fuel g (rstNode "rst" y) r a = .ok (applyRole (extractRelationtypes doc.rels) sp r y) := by
  have h1 := (hm.1 "edge_type" (by decide)).trans (rstEdge_type "rst" (extractRelationtypes doc.rels) y x.id)
  have h2 := (hm.1 "rst:rel_type" (by decide)).trans (rstEdge_relType (extractRelationtypes doc.rels) y x.id).1
  have h3 := (hm.1 "rst:rel_name" (by decide)).trans (rstEdge_relType (extractRelationtypes doc.rels) y x.id).2
  unfold rstRelEdge applyRole
  rw [featAt_eq h1, featAt_eq h2, featAt_eq h3, hs]
  simp only [bind, Except.bind, pure, Except.pure]
  unfold Rs3Xml.role
  cases hf : Dict.find (extractRelationtypes doc.rels) (y.relname.getD []) with
  | none => simp [spanningRelation]
  | some t =>
    by_cases ht : t = ['r', 's', 't']
    · subst ht
      have : strVal ['r', 's', 't'] = .atom (.str "rst") := strVal_lit _ _ (by decide)
      simp [this, spanningRelation]
    · by_cases ht2 : t = ['m', 'u', 'l', 't', 'i', 'n', 'u', 'c']
      · subst ht2
        have : strVal ['m', 'u', 'l', 't', 'i', 'n', 'u', 'c'] = .atom (.str "multinuc") := strVal_lit _ _ (by decide)
        simp [this, spanningRelation]
      · simp [ht, ht2, spanningRelation]

theorem segTok_le {x : Rs3Xml} {t t' : RstTok} (ht : t ∈ segTokens x) (ht' : t' ∈ segTokens x) : naturalLe (t.node "rst") (t'.node "rst") = true ↔ t.num ≤ t'.num := by
  have hseg : ∀ t ∈ segTokens x, t.seg = x := by
    intro t ht
    unfold segTokens at ht
    obtain ⟨w, _, rfl⟩ := List.mem_map.1 ht
    rfl
  have hp : ∀ t ∈ segTokens x, t.node "rst" = .str (("rst:rst:" ++ String.ofList (x.id ++ ['_'])) ++ String.ofList (decimal t.num)) := by
    intro t ht
    unfold RstTok.node
    rw [hseg t ht]
    congr 1
    apply String.toList_inj.1
    simp [qual, String.toList_append]
  rw [hp t ht, hp t' ht']
  refine (c20_numbered_ids_sort_numerically _ ?_ t.num t'.num).1
  intro c hc
  rw [String.toList_append, show (String.ofList (x.id ++ ['_'])).toList = x.id ++ ['_'] from String.toList_ofList, ← List.append_assoc, List.getLast?_append] at hc
  simp at hc
  subst hc
  decide

theorem segTokens_sorted (x : Rs3Xml) : ((segTokens x).map (RstTok.node "rst")).Pairwise (fun a b => naturalLe a b = true ∧ a ≠ b) := by
  rw [List.pairwise_map]
  have h1 : (segTokens x).Pairwise (fun a b => a.num < b.num) := by
    unfold segTokens
    rw [List.pairwise_map, List.pairwise_iff_getElem]
    intro i j hi hj hij
    simpa using hij
  refine h1.imp_of_mem ?_
  intro a b ha hb hlt
  refine ⟨(segTok_le ha hb).2 (by omega), fun e => ?_⟩
  have h2 := segTok_le hb ha
  have h3 := segTok_le ha ha
  rw [← e, h3] at h2
  omega

theorem tokenNeighbors_eq {g : DG} {n : NodeId} {nb : List NodeId} (hnb : g.neighbors n = .ok nb) {p : NodeId → Bool} (hist : ∀ m ∈ nb, g.istoken m none = .ok (p m)) : g.tokenNeighbors n = .ok (nb.filter p) := by
  unfold tokenNeighbors
  rw [hnb]
  simp only [bind, Except.bind, pure, Except.pure]
  clear hnb
  have key : ∃ xs, mapE (fun m => (do let b ← g.istoken m none; return (if b = true then [m] else []) : Except PyErr (List NodeId))) nb = .ok xs ∧ xs.flatten = nb.filter p := by
    induction nb with
    | nil => exact ⟨[], rfl, rfl⟩
    | cons m l ih =>
      obtain ⟨xs, h1, h2⟩ := ih (fun m hm => hist m (by simp [hm]))
      refine ⟨(if p m = true then [m] else []) :: xs, ?_, ?_⟩
      · unfold mapE
        rw [hist m (by simp), h1]
        rfl
      · rw [List.flatten_cons, h2, List.filter_cons]
        split <;> rfl
  obtain ⟨xs, h1, h2⟩ := key
  simp only [bind, Except.bind, pure, Except.pure] at h1
  rw [h1]
  simp only [h2]

end DG
end Dg
