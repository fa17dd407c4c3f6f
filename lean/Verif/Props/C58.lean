import Verif.Lemmas.RstRel
import Verif.Props.C27

/-! **C58**: the relations in a graph that was read from an .rs3 file (get_rst_relation_root_nodes, get_rst_relations, get_rst_spans). -/

namespace Dg
open Dict
namespace DG

/-- **C58 (spans of elements)**.  In a graph read from an .rs3 file (without precedence edges), `get_span` of a segment or group returns the tokens of all segments in its subtree, each once, in natural order of the token IDs. -/
theorem c58_element_span (name ns : String) (doc : Rs3Doc) (h : doc.ReadOk) (hac : RstAcyclic doc) (g : DG) (edus : List NodeId) (hr : rstRead name ns true false doc = .ok (g, edus)) (x : Rs3Xml) (hx : x ∈ doc.elems) (fuel : Nat) (hfuel : g.nodes.length ≤ fuel) :
    ∃ span, g.getSpan fuel (rstNode ns x) = .ok span ∧ CoversTokens ns doc x span := rst_getSpan h hac hr hx hfuel

/-- the relations of an element, computed on the graph -/
theorem rstRelOf_describes {name : String} {doc : Rs3Doc} (h : doc.ReadOk) (hac : RstAcyclic doc) {g : DG} {edus : List NodeId} (hr : rstRead name "rst" true false doc = .ok (g, edus)) {x : Rs3Xml} (hx : x ∈ doc.elems) {fuel : Nat} (hfuel : g.nodes.length ≤ fuel) :
    ∃ r, g.rstRelOf fuel (rstNode "rst" x) = .ok r ∧ RelDescribes "rst" doc x r := by
  obtain ⟨s, _⟩ := rstRead_content h hr
  have wf := s.inv.wf
  have hns : g.ns = "rst" := s.ns.trans rfl
  have hn : g.HasNode (rstNode "rst" x) := (c57_nodes name "rst" true false doc h g edus hr _).2 (.inl ⟨x, hx, rfl⟩)
  have hal : AllLayered g := fun n a ha => by
    obtain ⟨xs, h1, h2, _⟩ := s.layered n a ha
    exact ⟨xs, h1, h2⟩
  have hids : ∀ y ∈ doc.elems, ∀ z ∈ doc.elems, rstNode "rst" y = rstNode "rst" z → y = z := fun y hy z hz e => List.inj_on_of_nodup_map h.unique hy hz (rstId_inj e)
  have hout : ∀ m, OutNeighbor g (rstNode "rst" x) m ↔ (∃ y ∈ doc.elems, ChildOf y x ∧ m = rstNode "rst" y) ∨ ∃ t ∈ segTokens x, m = t.node "rst" := by
    intro m
    constructor
    · rintro ⟨k, hE⟩
      obtain ⟨a, hE⟩ := Option.isSome_iff_exists.1 hE
      rcases rst_edge_iff h hr _ _ a ⟨k, hE⟩ with ⟨y, hy, x', hx', hc, h1, h2, _⟩ | ⟨t, ht, h1, h2, _⟩
      · obtain rfl := hids x hx x' hx' h1
        exact .inl ⟨y, hy, hc, h2⟩
      · obtain rfl := hids x hx _ (mem_tokens ht).1 h1
        exact .inr ⟨t, (mem_tokens ht).2, h2⟩
    · rintro (⟨y, hy, hc, rfl⟩ | ⟨t, ht, rfl⟩)
      · obtain ⟨a, ⟨k, hE⟩, _⟩ := rst_edge_elem h hr hy hc
        exact ⟨k, Option.isSome_iff_exists.2 ⟨a, hE⟩⟩
      · obtain ⟨h1, rfl⟩ := tokens_of_seg hx ht
        obtain ⟨a, ⟨k, hE⟩, _⟩ := rst_edge_tok h hr h1
        exact ⟨k, Option.isSome_iff_exists.2 ⟨a, hE⟩⟩
  -- the neighbors in the layers of segments and groups
  obtain ⟨ms, hms, hnd, hmem⟩ := selectNeighborsByLayer_wf wf hal (rstNode "rst" x) hn (.many ["rst:segment", "rst:group"]) (by simp)
  have hperm : ms.Perm ((doc.elems.filter (fun y => decide (ChildOf y x))).map (rstNode "rst")) := by
    refine (List.perm_ext_iff_of_nodup hnd ?_).2 ?_
    · have := (List.Nodup.of_map _ h.unique).sublist (List.filter_sublist (p := fun y => decide (ChildOf y x)))
      rw [List.nodup_iff_pairwise_ne, List.pairwise_map]
      rw [List.nodup_iff_pairwise_ne] at this
      refine this.imp_of_mem ?_
      intro a b ha hb hab e
      exact hab (hids a (List.mem_filter.1 ha).1 b (List.mem_filter.1 hb).1 e)
    · intro m
      rw [hmem, hout]
      constructor
      · rintro ⟨⟨y, hy, hc, rfl⟩ | ⟨t, ht, rfl⟩, hl⟩
        · exact List.mem_map.2 ⟨y, List.mem_filter.2 ⟨hy, by simpa using hc⟩, rfl⟩
        · obtain ⟨l, hl, hl'⟩ := hl
          rw [((c57_tokens name "rst" false doc h g edus hr).2.2.2.1 t (tokens_of_seg hx ht).1).2.2] at hl'
          have q1 : qual "rst" "token" = "rst:token" := by decide
          rw [q1] at hl'
          rcases List.mem_cons.1 hl with rfl | hl
          · exact absurd hl' (by decide)
          · rcases List.mem_cons.1 hl with rfl | hl
            · exact absurd hl' (by decide)
            · cases hl
      · intro hm
        obtain ⟨y, hy, rfl⟩ := List.mem_map.1 hm
        obtain ⟨hy, hc⟩ := List.mem_filter.1 hy
        have hc : ChildOf y x := by simpa using hc
        refine ⟨.inl ⟨y, hy, hc, rfl⟩, ?_⟩
        have hp : y.parent ≠ none := by rw [show y.parent = some x.id from hc]; simp
        cases hseg : y.isSegment with
        | true =>
          refine ⟨"rst:segment", by simp, (c57_layers name "rst" true false doc h g edus hr y hy _).2 (.inr ?_)⟩
          rw [hseg, if_pos (Eq.refl true)]; decide
        | false =>
          refine ⟨"rst:group", by simp, (c57_layers name "rst" true false doc h g edus hr y hy _).2 (.inr ?_)⟩
          rw [hseg, if_neg (show ¬ (false = true) by decide), if_neg hp]; decide
  obtain ⟨ys, hys, rfl⟩ := perm_map_lift hperm
  have hysm : ∀ y ∈ ys, y ∈ doc.elems ∧ ChildOf y x := by
    intro y hy
    obtain ⟨h1, h2⟩ := List.mem_filter.1 (hys.mem_iff.1 hy)
    exact ⟨h1, by simpa using h2⟩
  have hmany : ∀ r, ∀ c : Role, (ys.filter (fun y => decide (y.role (extractRelationtypes doc.rels) = c))).Perm r → (childrenOf doc c x).Perm r := by
    intro r c hp
    refine List.Perm.trans ?_ hp
    refine List.Perm.symm ((hys.filter _).trans ?_)
    rw [List.filter_filter]
    unfold childrenOf
    refine List.Perm.of_eq ?_
    congr 1
    funext y
    rw [Bool.eq_iff_iff]
    simp [and_comm]
  -- tokens
  obtain ⟨nb, hnb, hnbnd, hnbm⟩ := neighbors_spec wf hn
  have htoks : g.tokenNeighbors (rstNode "rst" x) = .ok (nb.filter (fun m => decide (∃ t ∈ segTokens x, m = t.node "rst"))) := by
    have hist : ∀ m ∈ nb, g.istoken m none = .ok (decide (∃ t ∈ segTokens x, m = t.node "rst")) := by
      intro m hm
      have hmn : g.HasNode m := by
        obtain ⟨k, hE⟩ := (hnbm m).1 hm
        obtain ⟨a, hE⟩ := Option.isSome_iff_exists.1 hE
        exact (edge_ends wf hE).2
      obtain ⟨a, ha⟩ := hasNode_iff'.1 hmn
      unfold istoken
      have ha' : Dict.find g.nodes m = some a := ha
      rw [ha', hns]
      simp only [Option.getD_none]
      congr 1
      have hiff : Dict.has a (qual "rst" "token") = true ↔ g.IsToken m := by
        rw [has_iff, mem_keys_iff]
        unfold IsToken nodeAttr
        rw [ha, hns, Option.bind_some]
        exact Iff.rfl
      have h2 : g.IsToken m ↔ ∃ t ∈ segTokens x, m = t.node "rst" := by
        rw [rst_isToken h hr]
        constructor
        · rintro ⟨t, ht, rfl⟩
          rcases (hout _).1 ((hnbm _).1 hm) with ⟨y, hy, _, e⟩ | h3
          · exact (tok_node_ne (h.colon y hy) e).elim
          · exact h3
        · rintro ⟨t, ht, rfl⟩
          exact ⟨t, (tokens_of_seg hx ht).1, rfl⟩
      rw [Bool.eq_iff_iff, hiff, h2, decide_eq_true_iff]
    exact tokenNeighbors_eq hnb hist
  have hsorted : naturalSorted (nb.filter (fun m => decide (∃ t ∈ segTokens x, m = t.node "rst"))) = (segTokens x).map (RstTok.node "rst") := by
    have hst : ((segTokens x).map (RstTok.node "rst")).Pairwise (fun a b => naturalLe a b = true ∧ a ≠ b) := segTokens_sorted x
    have hp : (nb.filter (fun m => decide (∃ t ∈ segTokens x, m = t.node "rst"))).Perm ((segTokens x).map (RstTok.node "rst")) := by
      refine (List.perm_ext_iff_of_nodup (hnbnd.sublist List.filter_sublist) (List.nodup_iff_pairwise_ne.2 (hst.imp (fun h => h.2)))).2 ?_
      intro m
      rw [List.mem_filter, hnbm, hout]
      simp only [decide_eq_true_eq]
      constructor
      · rintro ⟨_, t, ht, rfl⟩
        exact List.mem_map.2 ⟨t, ht, rfl⟩
      · intro hm
        obtain ⟨t, ht, rfl⟩ := List.mem_map.1 hm
        exact ⟨.inr ⟨t, ht, rfl⟩, t, ht, rfl⟩
    have hst2 : (naturalSorted (nb.filter (fun m => decide (∃ t ∈ segTokens x, m = t.node "rst")))).Pairwise (fun a b => naturalLe a b = true) := pySorted_sorted naturalLe_total naturalLe_trans _
    refine List.Perm.eq_of_pairwise (le := fun a b => naturalLe a b = true) ?_ hst2 (hst.imp (fun h => h.1)) ((pySorted_perm _).trans hp)
    intro a b ha hb h1 h2
    obtain ⟨t, ht, rfl⟩ := List.mem_map.1 (((pySorted_perm _).trans hp).mem_iff.1 ha)
    obtain ⟨t', ht', rfl⟩ := List.mem_map.1 hb
    rw [segTok_le ht ht'] at h1
    rw [segTok_le ht' ht] at h2
    unfold RstTok.node
    rw [(tokens_of_seg hx ht).2, (tokens_of_seg hx ht').2, Nat.le_antisymm h1 h2]
  -- the spans of the children
  have hsp : ∃ sp : Rs3Xml → List NodeId, ∀ y ∈ doc.elems, g.getSpan fuel (rstNode "rst" y) = .ok (sp y) ∧ CoversTokens "rst" doc y (sp y) := by
    classical
    refine ⟨fun y => if hy : y ∈ doc.elems then (rst_getSpan h hac hr hy hfuel).choose else [], fun y hy => ?_⟩
    dsimp only
    rw [dif_pos hy]
    exact (rst_getSpan h hac hr hy hfuel).choose_spec
  obtain ⟨sp, hsp⟩ := hsp
  have hfold : ∀ (l : List Rs3Xml) (r : RstRel), (∀ y ∈ l, y ∈ doc.elems ∧ ChildOf y x) → (l.map (rstNode "rst")).foldlM (rstRelNeighbor fuel g (rstNode "rst" x)) r = .ok (l.foldl (applyRole (extractRelationtypes doc.rels) sp) r) := by
    intro l
    induction l with
    | nil => intro r _; rfl
    | cons y l ih =>
      intro r hl
      obtain ⟨hy, hc⟩ := hl y (by simp)
      obtain ⟨k, a, hkd, hm⟩ := rst_keyDict h hr hy hc
      rw [List.map_cons, List.foldlM_cons]
      have : rstRelNeighbor fuel g (rstNode "rst" x) r (rstNode "rst" y) = .ok (applyRole (extractRelationtypes doc.rels) sp r y) := by
        unfold rstRelNeighbor
        rw [hkd]
        simp only [List.foldlM_cons, List.foldlM_nil]
        rw [rstRelEdge_eq hm (hsp y hy).1]
        rfl
      rw [this]
      exact ih _ (fun z hz => hl z (by simp [hz]))
  refine ⟨ys.foldl (applyRole (extractRelationtypes doc.rels) sp) ⟨(segTokens x).map (RstTok.node "rst"), none, [], []⟩, ?_, ?_⟩
  · unfold rstRelOf rstNeighbors
    rw [hms, htoks]
    simp only [bind, Except.bind]
    rw [hsorted]
    exact hfold ys _ hysm
  · rw [applyRole_fold]
    refine ⟨rfl, ?_, ?_, ?_, ?_⟩
    · intro m span he
      simp only [Option.or_none] at he
      obtain ⟨y, hy, he⟩ := Option.map_eq_some_iff.1 he
      have hy := List.mem_of_getLast? hy
      have hy2 : y ∈ childrenOf doc .span x := (hmany _ .span (.refl _)).mem_iff.2 hy
      cases he
      exact ⟨y, hy2, rfl, (hsp y (hysm y (List.mem_filter.1 hy).1).1).2⟩
    · simp only [Option.or_none, Option.map_eq_none_iff, List.getLast?_eq_none_iff]
      have := hmany _ .span (.refl _)
      constructor
      · intro e; rw [e] at this; exact this.eq_nil
      · intro e; rw [e] at this; exact this.symm.eq_nil
    · refine ⟨_, (hmany _ .satellite (.refl _)).symm, ?_⟩
      simp only [List.nil_append]
      rw [List.forall₂_map_right_iff, List.forall₂_same]
      intro y hy
      exact ⟨rfl, rfl, (hsp y (hysm y (List.mem_filter.1 hy).1).1).2⟩
    · refine ⟨_, (hmany _ .nucleus (.refl _)).symm, ?_⟩
      simp only [List.nil_append]
      rw [List.forall₂_map_right_iff, List.forall₂_same]
      intro y hy
      exact ⟨rfl, rfl, (hsp y (hysm y (List.mem_filter.1 hy).1).1).2⟩

/-- the element of a node that dominates a relation -/
def relElem (ns : String) (doc : Rs3Doc) (m : NodeId) : Option Rs3Xml := doc.elems.find? (fun x => decide (rstNode ns x = m ∧ HasRelation doc x))

theorem relElem_some {ns : String} {doc : Rs3Doc} (h : doc.ReadOk) {m : NodeId} {x : Rs3Xml} : relElem ns doc m = some x ↔ x ∈ doc.elems ∧ HasRelation doc x ∧ m = rstNode ns x := by
  constructor
  · intro e
    have h1 := List.find?_some e
    simp only [decide_eq_true_eq] at h1
    exact ⟨List.mem_of_find?_eq_some e, h1.2, h1.1.symm⟩
  · rintro ⟨hx, hr, rfl⟩
    cases hf : relElem ns doc (rstNode ns x) with
    | none =>
      unfold relElem at hf
      rw [List.find?_eq_none] at hf
      exact (hf x hx (by simp [hr])).elim
    | some y =>
      have h1 := List.find?_some hf
      simp only [decide_eq_true_eq] at h1
      rw [List.inj_on_of_nodup_map h.unique (List.mem_of_find?_eq_some hf) hx (rstId_inj h1.1)]

theorem relElem_roots {ns : String} {doc : Rs3Doc} (h : doc.ReadOk) {ks : List NodeId} (hnd : ks.Nodup) (hk : ∀ x ∈ doc.elems, rstNode ns x ∈ ks) : RelationRoots doc (ks.filterMap (relElem ns doc)) := by
  constructor
  · refine List.Nodup.filterMap ?_ hnd
    intro a b c ha hb
    rw [((relElem_some h).1 ha).2.2, ((relElem_some h).1 hb).2.2]
  · intro x
    rw [List.mem_filterMap]
    constructor
    · rintro ⟨m, _, e⟩
      obtain ⟨h1, h2, _⟩ := (relElem_some h).1 e
      exact ⟨h1, h2⟩
    · rintro ⟨h1, h2⟩
      exact ⟨_, hk x h1, (relElem_some h).2 ⟨h1, h2, rfl⟩⟩

theorem mapE_select {α β γ : Type} {f : α → Except PyErr (List β)} {sel : α → Option γ} {R : γ → β → Prop} : ∀ {ps : List α}, (∀ p ∈ ps, match sel p with | none => f p = .ok [] | some x => ∃ e, f p = .ok [e] ∧ R x e) →
    ∃ ess, mapE f ps = .ok ess ∧ List.Forall₂ R (ps.filterMap sel) ess.flatten
  | [], _ => ⟨[], rfl, .nil⟩
  | p :: ps, hp => by
    obtain ⟨ess, h1, h2⟩ := mapE_select (f := f) (ps := ps) (sel := sel) (R := R) (fun q hq => hp q (by simp [hq]))
    have h3 := hp p (by simp)
    cases hs : sel p with
    | none =>
      rw [hs] at h3
      refine ⟨[] :: ess, ?_, ?_⟩
      · unfold mapE; rw [h3, h1]; rfl
      · rw [List.filterMap_cons_none hs]; exact h2
    | some x =>
      rw [hs] at h3
      obtain ⟨e, h3, h4⟩ := h3
      refine ⟨[e] :: ess, ?_, ?_⟩
      · unfold mapE; rw [h3, h1]; rfl
      · rw [List.filterMap_cons_some hs]; exact .cons h4 h2

/-- the relation name of an element in the graph -/
theorem rst_relName {name ns : String} {tokenize precedence : Bool} {doc : Rs3Doc} (h : doc.ReadOk) (hn : RelNamesOk doc) {g : DG} {edus : List NodeId} (hr : rstRead name ns tokenize precedence doc = .ok (g, edus)) {x : Rs3Xml} (hx : x ∈ doc.elems) {a : Attrs} (ha : g.nodeAttrs (rstNode ns x) = some a) :
    rstRelName ns a = if HasRelation doc x then some (strVal (lastRelName doc x)) else none := by
  obtain ⟨pre, post, ho⟩ := List.append_of_mem (mem_rstOrder.2 hx)
  obtain ⟨_, h2⟩ := c57_segment_type name ns tokenize precedence doc h g edus hr pre post x ho
  rw [← ho] at h2
  unfold nodeAttr at h2
  rw [ha, Option.bind_some] at h2
  unfold rstRelName
  rw [h2]
  have hspan : strVal ['s', 'p', 'a', 'n'] = .atom (.str "span") := strVal_lit _ _ (by decide)
  cases hl : ((rstOrder doc).filter (fun y => decide (ChildOf y x ∧ Rs3Xml.role (extractRelationtypes doc.rels) y ≠ Role.span))).getLast? with
  | some y =>
    have hy := List.mem_of_getLast? hl
    obtain ⟨hy, hc⟩ := List.mem_filter.1 hy
    simp only [decide_eq_true_eq] at hc
    have hy := mem_rstOrder.1 hy
    have hp : y.parent.isSome = true := by rw [show y.parent = some x.id from hc.1]; rfl
    rw [if_pos (show HasRelation doc x from ⟨y, hy, hc⟩)]
    obtain ⟨rn, hrn⟩ := Option.isSome_iff_exists.1 (h.rel y hy hp)
    unfold lastRelName
    rw [hl, Option.bind_some]
    dsimp only
    rw [hrn]
    simp only [Option.map_some, Option.getD_some]
    rw [if_neg]
    intro e
    rw [← hspan] at e
    have := strVal_inj e
    exact hc.2 ((hn y hy hp).2 (by rw [hrn, this]))
  | none =>
    rw [List.getLast?_eq_none_iff, List.filter_eq_nil_iff] at hl
    have hno : ¬ HasRelation doc x := by
      rintro ⟨y, hy, hc⟩
      exact hl y (mem_rstOrder.2 hy) (by simpa using hc)
    rw [if_neg hno]
    cases hf : pre.find? (fun y => decide (ChildOf y x)) with
    | none => rfl
    | some y =>
      have hy : y ∈ doc.elems := mem_rstOrder.1 (by rw [ho]; simp [List.mem_of_find?_eq_some hf])
      have hc : ChildOf y x := by simpa using List.find?_some hf
      have hp : y.parent.isSome = true := by rw [show y.parent = some x.id from hc]; rfl
      have : y.role (extractRelationtypes doc.rels) = .span := by
        by_contra hne
        exact hno ⟨y, hy, hc, hne⟩
      rw [Option.bind_some, (hn y hy hp).1 this]
      simp only [Option.map_some]
      rw [if_pos hspan]

theorem rst_relName_other {name ns : String} {precedence : Bool} {doc : Rs3Doc} (h : doc.ReadOk) {g : DG} {edus : List NodeId} (hr : rstRead name ns true precedence doc = .ok (g, edus)) {m : NodeId} (hm : ∀ x ∈ doc.elems, m ≠ rstNode ns x) {a : Attrs} (ha : g.nodeAttrs m = some a) :
    rstRelName ns a = none := by
  obtain ⟨s, _⟩ := rstRead_content h hr
  have hmn := (c57_nodes name ns true precedence doc h g edus hr m).1 (hasNode_iff'.2 ⟨a, ha⟩)
  have hattr := s.attr m (qual ns "rel_name") (fun h => qual_ne_plain (by decide) h)
  unfold nodeAttr at hattr
  rw [ha, Option.bind_some] at hattr
  unfold rstRelName
  rw [hattr]
  have hno : (fullView ns true precedence doc).attr m (qual ns "rel_name") = none := by
    simp only [fullView, if_true, tokView]
    cases hf : (Rs3Doc.tokens doc).find? (fun t => decide (t.node ns = m)) with
    | some t =>
      have q1 : qual ns "rel_name" ≠ qual ns "token" := fun h => absurd (qual_inj h) (by decide)
      have q6 : ∀ s, qual ns s ≠ "label" := fun s h => qual_ne_plain (by decide) h
      simp [tokAttrs, find, q1.symm, Ne.symm (q6 _)]
    | none =>
      simp only [docView, evView, if_neg (seg_ne_rel ns), if_true]
      rw [(rel_known (ns := ns) (rels := extractRelationtypes doc.rels) (rstEvents doc) m ?_).1]
      · rfl
      · cases hk : (facts ns (extractRelationtypes doc.rels) (rstEvents doc) m).known with
        | false => rfl
        | true =>
          obtain ⟨x, hx, e⟩ := (known_iff ns _ h m).1 hk
          exact (hm x hx e).elim
  rw [hno]

/-- an entry (node ID, relation name, tokens) for an element that dominates a relation -/
def RootEntry (ns : String) (doc : Rs3Doc) (x : Rs3Xml) (e : NodeId × Val × List NodeId) : Prop :=
  e.1 = rstNode ns x ∧ e.2.1 = strVal (lastRelName doc x) ∧ CoversTokens ns doc x e.2.2

theorem rstRootNode_eq {name ns : String} {doc : Rs3Doc} (h : doc.ReadOk) (hn : RelNamesOk doc) (hac : RstAcyclic doc) {g : DG} {edus : List NodeId} (hr : rstRead name ns true false doc = .ok (g, edus)) {fuel : Nat} (hfuel : g.nodes.length ≤ fuel) {p : NodeId × Attrs} (hp : p ∈ g.nodes) :
    match relElem ns doc p.1 with
    | none => rstRootNode fuel ns g p = .ok []
    | some x => ∃ e, rstRootNode fuel ns g p = .ok [e] ∧ RootEntry ns doc x e := by
  obtain ⟨s, _⟩ := rstRead_content h hr
  have ha : g.nodeAttrs p.1 = some p.2 := mem_find s.inv.wf.nodesNodup hp
  by_cases hx : ∃ x ∈ doc.elems, p.1 = rstNode ns x
  · obtain ⟨x, hx, e⟩ := hx
    rw [e] at ha
    have hrel := rst_relName h hn hr hx ha
    by_cases hR : HasRelation doc x
    · rw [if_pos hR] at hrel
      rw [(relElem_some h).2 ⟨hx, hR, e⟩]
      obtain ⟨span, hs, hc⟩ := rst_getSpan h hac hr hx hfuel
      refine ⟨(p.1, strVal (lastRelName doc x), span), ?_, e, rfl, hc⟩
      unfold rstRootNode
      rw [hrel]
      simp only
      rw [e, hs]
      rfl
    · rw [if_neg hR] at hrel
      have : relElem ns doc p.1 = none := by
        cases hf : relElem ns doc p.1 with
        | none => rfl
        | some y =>
          obtain ⟨hy, hR', e'⟩ := (relElem_some h).1 hf
          rw [List.inj_on_of_nodup_map h.unique hx hy (rstId_inj (e.symm.trans e'))] at hR
          exact (hR hR').elim
      rw [this]
      simp only
      unfold rstRootNode
      rw [hrel]
  · have hx : ∀ x ∈ doc.elems, p.1 ≠ rstNode ns x := fun x hx' e => hx ⟨x, hx', e⟩
    have : relElem ns doc p.1 = none := by
      cases hf : relElem ns doc p.1 with
      | none => rfl
      | some y =>
        obtain ⟨hy, _, e'⟩ := (relElem_some h).1 hf
        exact (hx y hy e').elim
    rw [this]
    simp only
    unfold rstRootNode
    rw [rst_relName_other h hr hx ha]

/-- **C58 (relation roots)**.  `get_rst_relation_root_nodes(g)` yields exactly the elements of the file that dominate a relation (that have a satellite or a nucleus of a multinuclear relation as child), each once, with the name of the last of these relations and with the tokens of its whole subtree. -/
theorem c58_relation_roots (name ns : String) (doc : Rs3Doc) (h : doc.ReadOk) (hn : RelNamesOk doc) (hac : RstAcyclic doc) (g : DG) (edus : List NodeId) (hr : rstRead name ns true false doc = .ok (g, edus)) (fuel : Nat) (hfuel : g.nodes.length ≤ fuel) :
    ∃ rs xs, rstRootNodes fuel ns g = .ok rs ∧ RelationRoots doc xs ∧
      List.Forall₂ (fun x e => e.1 = rstNode ns x ∧ e.2.1 = strVal (lastRelName doc x) ∧ CoversTokens ns doc x e.2.2) xs rs := by
  obtain ⟨s, _⟩ := rstRead_content h hr
  obtain ⟨ess, h1, h2⟩ := mapE_select (f := rstRootNode fuel ns g) (ps := g.nodes) (sel := fun p => relElem ns doc p.1) (R := RootEntry ns doc) (fun p hp => by
    have := rstRootNode_eq h hn hac hr hfuel hp
    cases hs : relElem ns doc p.1 with
    | none => rw [hs] at this; exact this
    | some x => rw [hs] at this; exact this)
  refine ⟨ess.flatten, _, ?_, ?_, h2⟩
  · unfold rstRootNodes
    rw [h1]; rfl
  · have : g.nodes.filterMap (fun p => relElem ns doc p.1) = (keys g.nodes).filterMap (relElem ns doc) := by
      unfold keys
      rw [List.filterMap_map]; rfl
    rw [this]
    exact relElem_roots h s.inv.wf.nodesNodup (fun x hx => (c57_nodes name ns true false doc h g edus hr _).2 (.inl ⟨x, hx, rfl⟩))

theorem relDescribes_ne {ns : String} {doc : Rs3Doc} {x : Rs3Xml} {r : RstRel} (hd : RelDescribes ns doc x r) (hR : HasRelation doc x) : r ≠ ⟨[], none, [], []⟩ := by
  rintro rfl
  obtain ⟨y, hy, hc, hne⟩ := hR
  obtain ⟨ys, hp, hf⟩ := hd.satellites
  obtain ⟨zs, hp', hf'⟩ := hd.multinuc
  cases hf
  cases hf'
  cases hro : y.role (extractRelationtypes doc.rels) with
  | span => exact hne hro
  | satellite =>
    have : y ∈ childrenOf doc .satellite x := List.mem_filter.2 ⟨hy, by simp [hc, hro]⟩
    rw [hp.symm.eq_nil] at this
    cases this
  | nucleus =>
    have : y ∈ childrenOf doc .nucleus x := List.mem_filter.2 ⟨hy, by simp [hc, hro]⟩
    rw [hp'.symm.eq_nil] at this
    cases this

theorem getRstRelations_eq {name : String} {doc : Rs3Doc} (h : doc.ReadOk) (hn : RelNamesOk doc) (hac : RstAcyclic doc) {g : DG} {edus : List NodeId} (hr : rstRead name "rst" true false doc = .ok (g, edus)) {fuel : Nat} (hfuel : g.nodes.length ≤ fuel) :
    ∃ rs xs, g.getRstRelations fuel = .ok rs ∧ RelationRoots doc xs ∧ List.Forall₂ (fun x e => e.1 = rstNode "rst" x ∧ RelDescribes "rst" doc x e.2) xs rs := by
  obtain ⟨s, _⟩ := rstRead_content h hr
  obtain ⟨ess, h1, h2⟩ := mapE_select (f := rstRelations1 fuel g) (ps := g.nodes) (sel := fun p => relElem "rst" doc p.1) (R := fun x e => e.1 = rstNode "rst" x ∧ RelDescribes "rst" doc x e.2) (by
    intro p hp
    have h1 := rstRootNode_eq h hn hac hr hfuel hp
    cases hs : relElem "rst" doc p.1 with
    | none =>
      rw [hs] at h1
      simp only at h1 ⊢
      unfold rstRelations1
      rw [h1]; rfl
    | some x =>
      rw [hs] at h1
      obtain ⟨e, h1, _⟩ := h1
      obtain ⟨hx, hR, e1⟩ := (relElem_some h).1 hs
      obtain ⟨r, h3, h4⟩ := rstRelOf_describes h hac hr hx hfuel
      refine ⟨(p.1, r), ?_, e1, h4⟩
      unfold rstRelations1
      rw [h1]
      simp only [bind, Except.bind]
      rw [e1, h3]
      simp only [pure, Except.pure]
      rw [if_neg (relDescribes_ne h4 hR)])
  refine ⟨ess.flatten, _, ?_, ?_, h2⟩
  · unfold getRstRelations
    rw [h1]; rfl
  · have : g.nodes.filterMap (fun p => relElem "rst" doc p.1) = (keys g.nodes).filterMap (relElem "rst" doc) := by
      unfold keys
      rw [List.filterMap_map]; rfl
    rw [this]
    exact relElem_roots h s.inv.wf.nodesNodup (fun x hx => (c57_nodes name "rst" true false doc h g edus hr _).2 (.inl ⟨x, hx, rfl⟩))

/-- **C58 (relations)**.  `get_rst_relations(g)` has exactly the elements that dominate a relation as keys, and describes their relations: the tokens of the element itself, the nucleus (a child that is the nucleus of a span) with the tokens below it, and each satellite and each nucleus of a multinuclear relation exactly once, with its relation name and the tokens below it. -/
theorem c58_relations_partial (name : String) (doc : Rs3Doc) (h : doc.ReadOk) (hn : RelNamesOk doc) (hac : RstAcyclic doc) (g : DG) (edus : List NodeId) (hr : rstRead name "rst" true false doc = .ok (g, edus)) (fuel : Nat) (hfuel : g.nodes.length ≤ fuel) :
    ∃ rs xs, g.getRstRelations fuel = .ok rs ∧ RelationRoots doc xs ∧ List.Forall₂ (fun x e => e.1 = rstNode "rst" x ∧ RelDescribes "rst" doc x e.2) xs rs :=
  getRstRelations_eq h hn hac hr hfuel

/-! ### rows -/

theorem offsets_ok {g : DG} {doc : Rs3Doc} (ht : g.tokens = (Rs3Doc.tokens doc).map (RstTok.node "rst")) (hnd : g.tokens.Nodup) {span : List NodeId} {P : RstTok → Prop} (hmem : ∀ m, m ∈ span ↔ ∃ t ∈ Rs3Doc.tokens doc, P t ∧ m = t.node "rst") (hne : ∃ t ∈ Rs3Doc.tokens doc, P t) :
    ∃ o, getSegmentTokenOffsets span (tokenMapper g).1 = .ok o ∧ FirstLast (Rs3Doc.tokens doc) P o.1 o.2 := by
  obtain ⟨t0, ht0, hP0⟩ := hne
  obtain ⟨a, b, h1, h2, h3, h4⟩ := c27_segment_offsets g hnd span (by rintro rfl; exact absurd ((hmem (t0.node "rst")).2 ⟨t0, ht0, hP0, rfl⟩) (by simp)) (by
    intro m hm
    obtain ⟨t, ht', _, rfl⟩ := (hmem m).1 hm
    rw [ht]
    exact List.mem_map.2 ⟨t, ht', rfl⟩)
  have hinj : ∀ (i : Nat) (m : NodeId), m ∈ span → g.tokens[i]? = some m → ∃ t, (Rs3Doc.tokens doc)[i]? = some t ∧ P t ∧ m = t.node "rst" := by
    intro i m hm hi
    obtain ⟨t, ht', hP, rfl⟩ := (hmem m).1 hm
    rw [ht, List.getElem?_map] at hi
    obtain ⟨t', h5, h6⟩ := Option.map_eq_some_iff.1 hi
    rw [ht] at hnd
    have := List.inj_on_of_nodup_map hnd (List.mem_of_getElem? h5) ht' h6
    subst this
    exact ⟨t', h5, hP, rfl⟩
  refine ⟨(a, b), h1, ?_, ?_, ?_⟩
  · obtain ⟨m, hm, hi⟩ := h2
    obtain ⟨t, h5, h6, _⟩ := hinj a m hm hi
    exact ⟨t, h5, h6⟩
  · obtain ⟨m, hm, hi⟩ := h3
    obtain ⟨t, h5, h6, _⟩ := hinj b m hm hi
    exact ⟨t, h5, h6⟩
  · intro i t hi hP
    obtain ⟨j, hj, h5⟩ := h4 (t.node "rst") ((hmem _).2 ⟨t, List.mem_of_getElem? hi, hP, rfl⟩)
    have hi' : g.tokens[i]? = some (t.node "rst") := by rw [ht, List.getElem?_map, hi]; rfl
    have : i = j := by
      have hlt : i < g.tokens.length := (List.getElem?_eq_some_iff.1 hi').1
      exact (List.getElem?_inj hlt hnd).1 (hi'.trans hj.symm)
    subst this
    exact h5

/-- the offsets of the multinuclear relation so far -/
def SoFar (toks : List RstTok) (P : RstTok → Prop) (se : Nat × Nat) : Prop := ((∀ t, ¬ P t) ∧ se = (maxint, 0)) ∨ FirstLast toks P se.1 se.2

theorem soFar_step {toks : List RstTok} (hlen : toks.length ≤ maxint) {P Q : RstTok → Prop} {se o : Nat × Nat} (hP : SoFar toks P se) (hQ : FirstLast toks Q o.1 o.2) :
    FirstLast toks (fun t => P t ∨ Q t) (if o.1 < se.1 then o.1 else se.1) (if o.2 > se.2 then o.2 else se.2) := by
  obtain ⟨⟨ta, ha, hqa⟩, ⟨tb, hb, hqb⟩, hq⟩ := hQ
  rcases hP with ⟨hno, rfl⟩ | ⟨⟨tc, hc, hpc⟩, ⟨td, hd, hpd⟩, hp⟩
  · have hlt : o.1 < maxint := Nat.lt_of_lt_of_le (List.getElem?_eq_some_iff.1 ha).1 hlen
    have h2 : (if o.2 > 0 then o.2 else 0) = o.2 := by split <;> omega
    simp only [if_pos hlt, h2]
    refine ⟨⟨ta, ha, .inr hqa⟩, ⟨tb, hb, .inr hqb⟩, ?_⟩
    rintro i t hi (h | h)
    · exact (hno t h).elim
    · exact hq i t hi h
  · refine ⟨?_, ?_, ?_⟩
    · split
      · exact ⟨ta, ha, .inr hqa⟩
      · exact ⟨tc, hc, .inl hpc⟩
    · split
      · exact ⟨tb, hb, .inr hqb⟩
      · exact ⟨td, hd, .inl hpd⟩
    · rintro i t hi (h | h)
      · have := hp i t hi h
        split <;> split <;> omega
      · have := hq i t hi h
        split <;> split <;> omega

theorem firstLast_congr {toks : List RstTok} {P Q : RstTok → Prop} (h : ∀ t, P t ↔ Q t) {a b : Nat} (hf : FirstLast toks P a b) : FirstLast toks Q a b := by
  obtain rfl : P = Q := funext (fun t => propext (h t))
  exact hf

theorem multinucSpans_ok {g : DG} {doc : Rs3Doc} (ht : g.tokens = (Rs3Doc.tokens doc).map (RstTok.node "rst")) (hnd : g.tokens.Nodup) (hlen : (Rs3Doc.tokens doc).length ≤ maxint) (rel : String) :
    ∀ {ms : List Rs3Xml} {es : List (NodeId × Val × List NodeId)}, List.Forall₂ (EntryFor "rst" doc) ms es → (∀ y ∈ ms, ∃ t ∈ Rs3Doc.tokens doc, Under doc t.seg y) → ∀ (i : Nat) (P : RstTok → Prop) (se : Nat × Nat), SoFar (Rs3Doc.tokens doc) P se →
    ∃ rows se', multinucSpans (tokenMapper g).1 rel (i + 1) es se = .ok (rows, se') ∧ SoFar (Rs3Doc.tokens doc) (fun t => P t ∨ ∃ y ∈ ms, Under doc t.seg y) se' ∧
      List.Forall₂ (RowSpec.Matches doc) ((ms.zipIdx i).map (fun p => ⟨rel, "N" ++ String.ofList (decimal (p.2 + 1)), p.1.relname.getD [], fun t => Under doc t.seg p.1⟩)) rows := by
  intro ms es hf
  induction hf with
  | nil =>
    intro _ i P se hP
    refine ⟨[], se, rfl, ?_, .nil⟩
    have : (fun t => P t ∨ ∃ y ∈ ([] : List Rs3Xml), Under doc t.seg y) = P := by funext t; simp
    rw [this]; exact hP
  | @cons y e ms es he _ ih =>
    intro hne i P se hP
    obtain ⟨h1, h2, h3⟩ := he
    obtain ⟨m, rn, toks⟩ := e
    simp only at h1 h2 h3
    obtain ⟨o, ho, hfl⟩ := offsets_ok ht hnd h3.mem (hne y (by simp))
    have hstep := soFar_step hlen hP hfl
    obtain ⟨rows, se', h4, h5, h6⟩ := ih (fun z hz => hne z (by simp [hz])) (i + 1) (fun t => P t ∨ Under doc t.seg y) (if o.1 < se.1 then o.1 else se.1, if o.2 > se.2 then o.2 else se.2) (.inr hstep)
    refine ⟨⟨rel, "N" ++ String.ofList (decimal (i + 1)), rn, o.1, o.2⟩ :: rows, se', ?_, ?_, ?_⟩
    · unfold multinucSpans
      rw [ho]
      simp only [bind, Except.bind]
      rw [h4]
      rfl
    · have : (fun t : RstTok => P t ∨ ∃ z ∈ y :: ms, Under doc t.seg z) = (fun t => (P t ∨ Under doc t.seg y) ∨ ∃ z ∈ ms, Under doc t.seg z) := by
        funext t
        simp [or_assoc]
      rw [this]
      exact h5
    · rw [List.zipIdx_cons, List.map_cons]
      exact .cons ⟨rfl, rfl, h2, hfl⟩ h6

theorem fmtId_rst (x : Rs3Xml) : rstTokenId.fmtId (rstNode "rst" x) = elemId x := by
  show qual "rst" (String.ofList x.id) = _
  unfold elemId
  apply String.toList_inj.1
  simp [qual, String.toList_append]

theorem satSpans_ok {g : DG} {doc : Rs3Doc} (ht : g.tokens = (Rs3Doc.tokens doc).map (RstTok.node "rst")) (hnd : g.tokens.Nodup) {nid : String} {P : RstTok → Prop} {nuc : NodeId × (Nat × Nat)} (hid : rstTokenId.fmtId nuc.1 = nid) (hP : FirstLast (Rs3Doc.tokens doc) P nuc.2.1 nuc.2.2) :
    ∀ {ss : List Rs3Xml} {es : List (NodeId × Val × List NodeId)}, List.Forall₂ (EntryFor "rst" doc) ss es → (∀ y ∈ ss, ∃ t ∈ Rs3Doc.tokens doc, Under doc t.seg y) →
    ∃ rows, mapE (satSpans (tokenMapper g).1 nuc) es = .ok rows ∧
      List.Forall₂ (RowSpec.Matches doc) (ss.flatMap (fun y => [⟨nid ++ "-" ++ elemId y, "N", y.relname.getD [], P⟩, ⟨nid ++ "-" ++ elemId y, "S", y.relname.getD [], fun t => Under doc t.seg y⟩])) rows.flatten := by
  intro ss es hf
  induction hf with
  | nil => intro _; exact ⟨[], rfl, .nil⟩
  | @cons y e ss es he _ ih =>
    intro hne
    obtain ⟨h1, h2, h3⟩ := he
    obtain ⟨o, ho, hfl⟩ := offsets_ok ht hnd h3.mem (hne y (by simp))
    obtain ⟨rows, h4, h5⟩ := ih (fun z hz => hne z (by simp [hz]))
    refine ⟨[⟨nid ++ "-" ++ elemId y, "N", e.2.1, nuc.2.1, nuc.2.2⟩, ⟨nid ++ "-" ++ elemId y, "S", e.2.1, o.1, o.2⟩] :: rows, ?_, ?_⟩
    · unfold mapE
      have : satSpans (tokenMapper g).1 nuc e = .ok [⟨nid ++ "-" ++ elemId y, "N", e.2.1, nuc.2.1, nuc.2.2⟩, ⟨nid ++ "-" ++ elemId y, "S", e.2.1, o.1, o.2⟩] := by
        unfold satSpans
        rw [ho, hid, h1, fmtId_rst]
        rfl
      rw [this, h4]
      rfl
    · rw [List.flatMap_cons, List.flatten_cons]
      exact List.rel_append (R := RowSpec.Matches doc) (.cons ⟨rfl, rfl, h2, hP⟩ (.cons ⟨rfl, rfl, h2, hfl⟩ .nil)) h5

theorem rstSpans1_ok {g : DG} {doc : Rs3Doc} (ht : g.tokens = (Rs3Doc.tokens doc).map (RstTok.node "rst")) (hnd : g.tokens.Nodup) (hlen : (Rs3Doc.tokens doc).length ≤ maxint) (hsp : Spanning doc)
    {x : Rs3Xml} (hx : x ∈ doc.elems) {r : RstRel} (hd : RelDescribes "rst" doc x r) : ∃ rows, rstSpans1 (tokenMapper g).1 (rstNode "rst" x, r) = .ok rows ∧ RowsFor doc x rows := by
  obtain ⟨ms, hmp, hmf⟩ := hd.multinuc
  obtain ⟨ss, hsp', hsf⟩ := hd.satellites
  have hch : ∀ c y, y ∈ childrenOf doc c x → y ∈ doc.elems := fun c y hy => (List.mem_filter.1 hy).1
  have hname : multinucName (rstNode "rst" x) r.multinuc = elemId x ++ "-" ++ String.intercalate "-" (ms.map elemId) := by
    unfold multinucName
    rw [fmtId_rst]
    congr 2
    clear hmp
    generalize r.multinuc = es at hmf
    induction hmf with
    | nil => rfl
    | cons he _ ih => rw [List.map_cons, List.map_cons, he.1, fmtId_rst, ih]
  obtain ⟨rows1, se, h1, h2, h3⟩ := multinucSpans_ok ht hnd hlen (elemId x ++ "-" ++ String.intercalate "-" (ms.map elemId)) hmf (fun y hy => hsp.1 y (hch _ y (hmp.mem_iff.1 hy))) 0 (fun _ => False) (maxint, 0) (.inl ⟨fun _ h => h, rfl⟩)
  have h2' : SoFar (Rs3Doc.tokens doc) (fun t => ∃ y ∈ ms, Under doc t.seg y) se := by
    have : (fun t : RstTok => False ∨ ∃ y ∈ ms, Under doc t.seg y) = (fun t => ∃ y ∈ ms, Under doc t.seg y) := by funext t; simp
    rw [← this]; exact h2
  have hz : ∃ z : Option Rs3Xml, (∀ y, z = some y → y ∈ childrenOf doc .span x) ∧ (z = none → childrenOf doc .span x = []) ∧
      (match z with | some y => ∃ toks, r.nucleus = some (rstNode "rst" y, toks) ∧ CoversTokens "rst" doc y toks | none => r.nucleus = none) := by
    cases hn : r.nucleus with
    | none => exact ⟨none, ⟨fun y h => (by cases h), fun _ => hd.noNucleus.1 hn, rfl⟩⟩
    | some p =>
      obtain ⟨y, hy, e1, e2⟩ := hd.nucleus p.1 p.2 hn
      refine ⟨some y, fun z h => by cases h; exact hy, fun h => (by cases h), p.2, ?_, e2⟩
      rw [← e1]
  obtain ⟨z, hz1, hz2, hz3⟩ := hz
  have hsat : ∃ rows2, satellitesSpans (tokenMapper g).1 (rstNode "rst" x) r se = .ok rows2 ∧ List.Forall₂ (RowSpec.Matches doc) (satelliteRows doc x z ms ss) rows2 := by
    unfold satellitesSpans
    by_cases he : r.satellites = []
    · rw [if_pos he]
      rw [he] at hsf
      cases hsf
      exact ⟨[], rfl, .nil⟩
    · rw [if_neg he]
      have hss : childrenOf doc .satellite x ≠ [] := by
        intro e
        rw [e] at hsp'
        rw [hsp'.eq_nil] at hsf
        exact he (List.forall₂_nil_left_iff.1 hsf)
      have hnuc : ∃ nuc, satNucleus (tokenMapper g).1 (rstNode "rst" x) r se = .ok nuc ∧ rstTokenId.fmtId nuc.1 = (nucleusOf doc x z ms).1 ∧ FirstLast (Rs3Doc.tokens doc) (nucleusOf doc x z ms).2 nuc.2.1 nuc.2.2 := by
        unfold satNucleus
        cases z with
        | some y =>
          obtain ⟨toks, e1, e2⟩ := hz3
          rw [e1]
          obtain ⟨o, ho, hfl⟩ := offsets_ok ht hnd e2.mem (hsp.1 y (hch _ y (hz1 y rfl)))
          exact ⟨(rstNode "rst" y, o), by simp only [ho]; rfl, fmtId_rst y, hfl⟩
        | none =>
          rw [show r.nucleus = none from hz3]
          simp only
          cases ms with
          | cons y ys =>
            have : r.multinuc ≠ [] := by intro e; rw [e] at hmf; cases hmf
            rw [if_pos this]
            refine ⟨_, rfl, fmtId_rst x, ?_⟩
            rcases h2' with ⟨hno, _⟩ | hfl
            · obtain ⟨t, _, hu⟩ := hsp.1 y (hch _ y (hmp.mem_iff.1 (by simp)))
              exact (hno t ⟨y, by simp, hu⟩).elim
            · exact hfl
          | nil =>
            have : r.multinuc = [] := List.forall₂_nil_left_iff.1 hmf
            rw [this, if_neg (by simp)]
            have htk : segTokens x ≠ [] := by
              rcases hsp.2 x hx hss with h4 | h4 | h4
              · exact (h4 (hz2 rfl)).elim
              · exact (h4 hmp.symm.eq_nil).elim
              · exact h4
            have htk' : r.tokens ≠ [] := by rw [hd.tokens]; simpa using htk
            rw [if_pos htk']
            obtain ⟨t0, ht0⟩ := List.exists_mem_of_ne_nil _ htk
            obtain ⟨o, ho, hfl⟩ := offsets_ok ht hnd (span := r.tokens) (P := fun t => t.seg = x) (by
              intro m
              rw [hd.tokens, List.mem_map]
              constructor
              · rintro ⟨t, ht', rfl⟩
                obtain ⟨h5, h6⟩ := tokens_of_seg hx ht'
                exact ⟨t, h5, h6, rfl⟩
              · rintro ⟨t, ht', rfl, rfl⟩
                exact ⟨t, (mem_tokens ht').2, rfl⟩) ⟨t0, (tokens_of_seg hx ht0).1, (tokens_of_seg hx ht0).2⟩
            exact ⟨(rstNode "rst" x, o), by simp only [ho]; rfl, fmtId_rst x, hfl⟩
      obtain ⟨nuc, hn1, hn2, hn3⟩ := hnuc
      obtain ⟨rows, h5, h6⟩ := satSpans_ok ht hnd hn2 hn3 hsf (fun y hy => hsp.1 y (hch _ y (hsp'.mem_iff.1 hy)))
      refine ⟨rows.flatten, ?_, h6⟩
      rw [hn1]
      simp only [bind, Except.bind]
      rw [h5]
      rfl
  obtain ⟨rows2, h4, h5⟩ := hsat
  refine ⟨rows1 ++ rows2, ?_, z, ms, ss, hmp, hsp', hz1, hz2, List.rel_append (R := RowSpec.Matches doc) h3 h5⟩
  unfold rstSpans1
  simp only [hname]
  rw [h1]
  simp only [bind, Except.bind]
  rw [h4]
  rfl

/-- **C58 (rows)**.  `get_rst_spans(g)` has, for each element that dominates a relation, one row per nucleus of a multinuclear relation and two rows per satellite (nucleus and satellite), with the relation name and the positions of the first and last token of the nucleus or satellite, if all elements have tokens and groups with satellites have a nucleus. -/
theorem c58_spans_partial (name : String) (doc : Rs3Doc) (h : doc.ReadOk) (hn : RelNamesOk doc) (hac : RstAcyclic doc) (hsp : Spanning doc) (hlen : (Rs3Doc.tokens doc).length ≤ maxint) (g : DG) (edus : List NodeId) (hr : rstRead name "rst" true false doc = .ok (g, edus)) (fuel : Nat) (hfuel : g.nodes.length ≤ fuel) :
    ∃ rows xs, g.getRstSpans fuel = .ok (rows.flatten) ∧ RelationRoots doc xs ∧ List.Forall₂ (RowsFor doc) xs rows := by
  obtain ⟨rs, xs, h1, h2, h3⟩ := getRstRelations_eq h hn hac hr hfuel
  obtain ⟨ht, hnd, _⟩ := c57_tokens name "rst" false doc h g edus hr
  have key : ∀ {xs : List Rs3Xml} {rs : List (NodeId × RstRel)}, List.Forall₂ (fun x e => e.1 = rstNode "rst" x ∧ RelDescribes "rst" doc x e.2) xs rs → (∀ x ∈ xs, x ∈ doc.elems) → ∃ rows, mapE (rstSpans1 (tokenMapper g).1) rs = .ok rows ∧ List.Forall₂ (RowsFor doc) xs rows := by
    intro xs rs hf
    induction hf with
    | nil => intro _; exact ⟨[], rfl, .nil⟩
    | @cons x e xs rs he _ ih =>
      intro hx
      obtain ⟨rows, h4, h5⟩ := ih (fun y hy => hx y (by simp [hy]))
      obtain ⟨row, h6, h7⟩ := rstSpans1_ok ht hnd hlen hsp (hx x (by simp)) he.2
      refine ⟨row :: rows, ?_, .cons h7 h5⟩
      unfold mapE
      rw [show e = (rstNode "rst" x, e.2) from Prod.ext he.1 rfl, h6, h4]
      rfl
  obtain ⟨rows, h4, h5⟩ := key h3 (fun x hx => ((h2.2 x).1 hx).1)
  refine ⟨rows, xs, ?_, h2, h5⟩
  unfold getRstSpans
  rw [h1]
  simp only [bind, Except.bind]
  rw [h4]
  rfl

/-! ### the hypotheses are satisfiable, and what they exclude -/

theorem rstAcyclic_of_rank {doc : Rs3Doc} (r : List Char → Nat) (h : ∀ x ∈ doc.elems, ∀ y ∈ doc.elems, ChildOf y x → r y.id < r x.id) : RstAcyclic doc := by
  have key : ∀ {z x : Rs3Xml}, Under doc z x → x ∈ doc.elems → r z.id ≤ r x.id := by
    intro z x hu
    induction hu with
    | refl => intro _; exact Nat.le_refl _
    | child hy hc _ ih =>
      intro hx
      have := ih hy
      have := h _ hx _ hy hc
      omega
  intro x hx y hy hc hu
  have h1 := h x hx y hy hc
  have h2 := key hu hy
  omega

theorem sampleRst_acyclic : RstAcyclic sampleRst :=
  rstAcyclic_of_rank (fun i => if i = ['6'] then 3 else if i = ['5'] then 2 else if i = ['2'] then 1 else 0) (by decide)

theorem sampleRst_names : RelNamesOk sampleRst := by
  unfold RelNamesOk
  decide

theorem sampleRst_spanning : Spanning sampleRst := by
  constructor
  · intro x hx
    simp only [sampleRst, List.mem_cons, List.not_mem_nil, or_false] at hx
    rcases hx with rfl | rfl | rfl | rfl | rfl | rfl
    · exact ⟨⟨_, 0, ['a']⟩, by decide +kernel, .refl _⟩
    · exact ⟨⟨_, 0, ['c']⟩, by decide +kernel, .refl _⟩
    · exact ⟨⟨_, 0, ['d']⟩, by decide +kernel, .refl _⟩
    · exact ⟨⟨⟨['2'], some ['5'], some ['s', 'p', 'a', 'n'], .segment (some ['c'])⟩, 0, ['c']⟩, by decide +kernel, .child (.tail _ (.head _)) (by decide) (.refl _)⟩
    · exact ⟨⟨⟨['3'], some ['6'], some ['l', 'i', 's', 't'], .segment (some ['d'])⟩, 0, ['d']⟩, by decide +kernel, .child (.tail _ (.tail _ (.head _))) (by decide) (.refl _)⟩
    · exact ⟨⟨_, 0, ['T']⟩, by decide +kernel, .refl _⟩
  · decide +kernel

example : sampleRst.ReadOk ∧ RelNamesOk sampleRst ∧ RstAcyclic sampleRst ∧ Spanning sampleRst ∧ (Rs3Doc.tokens sampleRst).length ≤ maxint ∧ (rstRead "f" "rst" true false sampleRst).isOk = true :=
  ⟨sampleRst_ok, sampleRst_names, sampleRst_acyclic, sampleRst_spanning, by decide +kernel, by decide +kernel⟩

example : (rstRead "f" "rst" true false sampleRst).toOption.bind (fun r => (r.1.getRstSpans 30).toOption) =
    some [⟨"rst:2-rst:1", "N", .atom (.str "ev"), 2, 2⟩, ⟨"rst:2-rst:1", "S", .atom (.str "ev"), 0, 1⟩, ⟨"rst:6-rst:3-rst:5", "N1", .atom (.str "list"), 3, 3⟩, ⟨"rst:6-rst:3-rst:5", "N2", .atom (.str "list"), 0, 2⟩] := by decide +kernel

/-- **C58 fails for graphs with precedence edges**: get_span follows them.  In the same file, read with `precedence=True`, the span of segment 1 contains all tokens of the document, most of them twice. -/
theorem c58_fails_precedence :
    (rstRead "f" "rst" true false sampleRst).toOption.bind (fun r => (r.1.getSpan 30 (.str "rst:1")).toOption) = some [.str "rst:rst:1_0", .str "rst:rst:1_1"] ∧
    (rstRead "f" "rst" true true sampleRst).toOption.bind (fun r => (r.1.getSpan 30 (.str "rst:1")).toOption) =
      some [.str "rst:rst:1_0", .str "rst:rst:1_1", .str "rst:rst:1_1", .str "rst:rst:2_0", .str "rst:rst:2_0", .str "rst:rst:3_0", .str "rst:rst:3_0", .str "rst:rst:9_0", .str "rst:rst:9_0"] := by decide +kernel

/-- **C58 fails for other namespaces**: get_rst_relations and get_rst_spans only look at the namespace "rst"; a file that was read with another namespace has no relations. -/
theorem c58_fails_namespace :
    (rstRead "f" "rst" true false sampleRst2).toOption.bind (fun r => (r.1.getRstRelations 30).toOption.map List.length) = some 1 ∧
    (rstRead "f" "x" true false sampleRst2).toOption.bind (fun r => (r.1.getRstRelations 30).toOption.map List.length) = some 0 := by decide +kernel

/-- the file sampleRst2, but the satellite has no text -/
def sampleRst4 : Rs3Doc :=
  ⟨[(['e', 'v'], some ['r', 's', 't'])],
   [⟨['1'], some ['3'], some ['s', 'p', 'a', 'n'], .segment (some ['a'])⟩, ⟨['2'], some ['1'], some ['e', 'v'], .segment none⟩, ⟨['3'], none, none, .group (some ['s', 'p', 'a', 'n'])⟩]⟩

/-- **C58 fails for empty segments**: the file can be read, but get_rst_spans raises a ValueError. -/
theorem c58_fails_empty : sampleRst4.ReadOk ∧ (rstRead "f" "rst" true false sampleRst4).toOption.map (fun r => r.1.getRstSpans 30) = some (.error .value) :=
  ⟨by constructor <;> decide, by decide +kernel⟩

/-- segments 1 and 2 are the nuclei of a list, group 4; segment 3 is a satellite of this group -/
def sampleRst5 : Rs3Doc :=
  ⟨[(['l', 'i', 's', 't'], some ['m', 'u', 'l', 't', 'i', 'n', 'u', 'c']), (['e', 'v'], some ['r', 's', 't'])],
   [⟨['1'], some ['4'], some ['l', 'i', 's', 't'], .segment (some ['a'])⟩, ⟨['2'], some ['4'], some ['l', 'i', 's', 't'], .segment (some ['b'])⟩, ⟨['3'], some ['4'], some ['e', 'v'], .segment (some ['c'])⟩,
    ⟨['4'], none, none, .group (some ['m', 'u', 'l', 't', 'i', 'n', 'u', 'c'])⟩]⟩

/-- **C58 fails for the documented structure**: "If the dictionary contains the key 'multinuc', … the keys 'nucleus' and 'satellites' contain nothing" (rs3graph.py:417-418) does not hold. -/
theorem c58_fails_multinuc : sampleRst5.ReadOk ∧
    (rstRead "f" "rst" true false sampleRst5).toOption.bind (fun r => (r.1.getRstRelations 30).toOption.map (fun rs => rs.map (fun e => (e.1, e.2.multinuc.length, e.2.satellites.length)))) = some [(.str "rst:4", 2, 1)] :=
  ⟨by constructor <;> decide, by decide +kernel⟩

/-- a file without header, in which segment 2 is related to segment 1 by an undeclared relation -/
def sampleRst6 : Rs3Doc :=
  ⟨[], [⟨['2'], some ['3'], some ['e', 'v'], .segment (some ['b'])⟩, ⟨['3'], none, none, .group (some ['s', 'p', 'a', 'n'])⟩]⟩

/-- **C58 fails for undeclared relations**: group 3 dominates no satellite and no nucleus of a multinuclear relation, but is reported as relation root. -/
theorem c58_fails_undeclared : sampleRst6.ReadOk ∧ (∀ x ∈ sampleRst6.elems, ¬ HasRelation sampleRst6 x) ∧
    (rstRead "f" "rst" true false sampleRst6).toOption.bind (fun r => (rstRootNodes 30 "rst" r.1).toOption) = some [(.str "rst:3", .atom (.str "ev"), [.str "rst:rst:2_0"])] :=
  ⟨by constructor <;> decide, by decide, by decide +kernel⟩

end DG
end Dg
