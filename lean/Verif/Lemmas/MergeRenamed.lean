import Verif.Lemmas.MergeSpec

namespace Dg
open Dict
namespace DG

theorem outEdges_eq_filter {g : DG} (wf : WF g) (n : NodeId) : g.outEdges n = g.edges.filter (fun e => decide (e.1 = n)) := by
  unfold outEdges edges
  have nd : (keys g.adj).Nodup := by rw [wf.adjKeys]; exact wf.nodesNodup
  generalize g.adj = adj at nd
  have hcons : ∀ (p : NodeId × Dict NodeId KeyDict), (p.2.flatMap fun q => q.2.map fun r => (p.1, q.1, r.1, r.2)).filter (fun e : Edge => decide (e.1 = n)) =
      if p.1 = n then (p.2.flatMap fun q => q.2.map fun r => (p.1, q.1, r.1, r.2)) else [] := by
    intro p
    split
    · rename_i h
      apply List.filter_eq_self.2
      intro e he
      simp only [List.mem_flatMap, List.mem_map] at he
      obtain ⟨q, _, r, _, rfl⟩ := he
      simpa using h
    · rename_i h
      apply List.filter_eq_nil_iff.2
      intro e he
      simp only [List.mem_flatMap, List.mem_map] at he
      obtain ⟨q, _, r, _, rfl⟩ := he
      simpa using h
  induction adj with
  | nil => simp
  | cons p adj ih =>
    simp only [keys, List.map_cons, List.nodup_cons] at nd
    simp only [List.flatMap_cons, List.filter_append]
    rw [hcons p, ← ih nd.2]
    obtain ⟨a, nb⟩ := p
    by_cases h : a = n
    · subst h
      have : find adj a = none := (find_eq_none_iff _ _).2 nd.1
      simp [this]
    · simp [h]

theorem outEdges_triple_nodup {g : DG} (wf : WF g) (n : NodeId) : ((g.outEdges n).map Edge.triple).Nodup := by
  rw [outEdges_eq_filter wf]
  exact (List.Sublist.map Edge.triple List.filter_sublist).nodup (edges_triple_nodup wf)

theorem forall₂_filter {α β : Type} {R : α → β → Prop} {p : α → Bool} {q : β → Bool} {xs : List α} {ys : List β} (h : List.Forall₂ R xs ys)
    (hpq : ∀ x y, R x y → p x = q y) : List.Forall₂ R (xs.filter p) (ys.filter q) := by
  induction h with
  | nil => exact .nil
  | @cons x y xs ys hr hrs ih =>
    have := hpq x y hr
    by_cases hp : p x
    · have hq : q y = true := by rw [← this]; exact hp
      simp only [List.filter_cons, hp, hq, if_true]; exact .cons hr ih
    · have hq : ¬ q y = true := by rw [← this]; exact hp
      simp only [List.filter_cons, hp, hq]; exact ih

theorem forall₂_right {α β : Type} {R : α → β → Prop} {xs : List α} {ys : List β} (h : List.Forall₂ R xs ys) {y : β} (hy : y ∈ ys) : ∃ x ∈ xs, R x y := by
  induction h with
  | nil => simp at hy
  | cons hr _ ih =>
    rcases List.mem_cons.1 hy with rfl | hy
    · exact ⟨_, by simp, hr⟩
    · obtain ⟨x, hx, hxy⟩ := ih hy; exact ⟨x, List.mem_cons_of_mem _ hx, hxy⟩

theorem forall₂_left {α β : Type} {R : α → β → Prop} {xs : List α} {ys : List β} (h : List.Forall₂ R xs ys) {x : α} (hx : x ∈ xs) : ∃ y ∈ ys, R x y := by
  induction h with
  | nil => simp at hx
  | cons hr _ ih =>
    rcases List.mem_cons.1 hx with rfl | hx
    · exact ⟨_, by simp, hr⟩
    · obtain ⟨y, hy, hxy⟩ := ih hx; exact ⟨y, List.mem_cons_of_mem _ hy, hxy⟩

theorem AddsEdges.nodes_same {g g' : DG} {new : List Edge} (h : AddsEdges g g' new) (he : ∀ e ∈ new, g.HasNode e.1 ∧ g.HasNode e.2.1) (n : NodeId) :
    g'.nodeAttrs n = g.nodeAttrs n := by
  rw [h.nodes]
  split
  · rename_i hc
    obtain ⟨e, hm, hn⟩ := hc
    have : g.HasNode n := by rcases hn with rfl | rfl; exacts [(he e hm).1, (he e hm).2]
    obtain ⟨a, ha⟩ := hasNode_iff'.1 this
    rw [ha]; rfl
  · rfl

/-- `g'` is the result of merging `o` into `g` (token IDs already agree) -/
structure MergedWith (g o g' : DG) : Prop where
  copies : ∀ n, o.HasNode n → n ≠ o.root → g'.HasNode n ∧ HasCopy o g' n
  noRoot : ¬ g'.HasNode o.root
  nodes : ∀ n, g'.HasNode n → g.HasNode n ∨ o.HasNode n
  others : ∀ n, ¬ o.HasNode n → n ≠ g.root → g'.nodeAttrs n = g.nodeAttrs n
  metadata : ∀ own, g.nodeAttr g.root "metadata" = some (.dict own) → g'.nodeAttr g.root "metadata" =
    some (.dict (match o.nodeAttr o.root "metadata" with | some (.dict d) => upd own d | _ => own))
  edges : ∃ new1 new2, List.Forall₂ EdgeCopy (o.edges.filter (fun e => decide (e.1 ≠ o.root))) new1 ∧
    List.Forall₂ (RootCopy g.root g.ns) (o.outEdges o.root) new2 ∧ ((new1 ++ new2).map Edge.triple).Nodup ∧
    (∀ e ∈ new1 ++ new2, ¬ g.HasEdge e.1 e.2.1 e.2.2.1) ∧ (∀ e ∈ new1 ++ new2, g'.edgeAttrs e.1 e.2.1 e.2.2.1 = some e.2.2.2) ∧
    ∀ u v k, (u, v, k) ∉ (new1 ++ new2).map Edge.triple → g'.edgeAttrs u v k = g.edgeAttrs u v k
  layered : NodesLayered False g'
  tokens : ∀ n v, o.HasNode n → n ≠ o.root → ¬ g.HasNode n → o.nodeAttr n (qual g.ns "token") = none → o.nodeAttr n (qual o.ns "token") = some v →
    g'.nodeAttr n (qual g.ns "token") = some v

/-- nodes that are new have exactly the attributes given -/
theorem addTups_new (ps : List (NodeId × Attrs)) : ∀ {g g' : DG}, Inv g → NodesLayered False g → (keys ps).Nodup → (∀ p ∈ ps, (keys p.2).Nodup ∧ LayeredNE p.2) →
    g.addNodesFrom [] (ps.map (fun p => NodeItem.tup p.1 p.2)) = (g', none) → ∀ p ∈ ps, ¬ g.HasNode p.1 → g'.nodeAttrs p.1 = some p.2 := by
  induction ps with
  | nil => intro g g' _ _ _ _ _ p hp; cases hp
  | cons q ps ih =>
    intro g g' hi hl nd hp he p hm hno
    obtain ⟨n, d⟩ := q
    obtain ⟨g1, h1, hi1, hl1, ho1, hk1, -⟩ := addTup (n := n) hi hl (hp (n, d) (by simp)).1 (hp (n, d) (by simp)).2
    simp only [keys, List.map_cons, List.nodup_cons] at nd
    simp only [List.map_cons] at he
    unfold addNodesFrom at he
    rw [h1] at he
    have hps := fun p hm => hp p (List.mem_cons_of_mem _ hm)
    rcases List.mem_cons.1 hm with rfl | hm'
    · obtain ⟨g2, e2, -, -, e5, -⟩ := addTups ps hi1 hl1 nd.2 hps
      have : g' = g2 := by
        have := e2.symm.trans he
        exact (congrArg Prod.fst this).symm
      subst this
      rw [e5 _ nd.1]
      have hdef : g.defaultLayers d = d := by
        obtain ⟨xs, hxs, -⟩ := (hp (n, d) (by simp)).2
        unfold defaultLayers
        rw [if_pos ((has_iff _ _).2 ((mem_keys_iff _ _).2 ⟨_, hxs⟩))]
      obtain ⟨ls, hls, _, (⟨_, rfl⟩ | ⟨old, ex, hold, hex, rfl⟩)⟩ := addNodeItem_tup_ok h1
      · rw [nodeAttrs_newNode, if_pos rfl, hdef, upd_nil_of_nodup (hp (n, d) (by simp)).1]
      · exact absurd (hasNode_iff'.2 ⟨_, hold⟩) hno
    · have hne : p.1 ≠ n := by
        rintro rfl
        exact nd.1 (List.mem_map_of_mem (f := Prod.fst) hm')
      refine ih hi1 hl1 nd.2 hps he p hm' ?_
      intro h
      obtain ⟨a, ha⟩ := hasNode_iff'.1 h
      rw [ho1 _ hne] at ha
      exact hno (hasNode_iff'.2 ⟨a, ha⟩)

/-- the token attribute is copied to the own namespace if it is missing there -/
theorem copyTokens_token (other : DG) (l : List NodeId) : ∀ {g g' : DG}, Inv g → NodesLayered False g → (∀ n ∈ l, other.HasNode n ∧ g.HasNode n) → l.Nodup →
    copyTokens other g l = (g', none) → ∀ n ∈ l, ∀ v, g.nodeAttr n (qual g.ns "token") = none → other.nodeAttr n (qual other.ns "token") = some v →
    g'.nodeAttr n (qual g.ns "token") = some v := by
  induction l with
  | nil => intro g g' _ _ _ _ _ n hn; cases hn
  | cons m l ih =>
    intro g g' hi hl hm nd he n hn v h1 h2
    obtain ⟨g1, hg1⟩ := copyToken_total (hm m (by simp)).1 (hm m (by simp)).2
    unfold copyTokens at he
    rw [hg1] at he
    simp only [List.nodup_cons] at nd
    have hfacts : Inv g1 ∧ NodesLayered False g1 ∧ keys g1.nodes = keys g.nodes ∧ g1.ns = g.ns ∧ (∀ k, k ≠ m → g1.nodeAttrs k = g.nodeAttrs k) := by
      rcases copyToken_ok hg1 with rfl | ⟨hl', tok, _, h⟩
      · exact ⟨hi, hl, rfl, rfl, fun _ _ => rfl⟩
      · exact ⟨inv_setAttr hi h, nodesLayered_setAttr (qual_ne_plain (by decide)) hl h, (setAttr_frame h).1, (ran_setAttr (qual_ne_plain (by decide)) h).root.2, fun k hk => nodeAttrs_setAttr h k hk⟩
    obtain ⟨f1, f2, f3, f4, f5⟩ := hfacts
    have hm1 : ∀ n ∈ l, other.HasNode n ∧ g1.HasNode n := fun k hk => ⟨(hm k (List.mem_cons_of_mem _ hk)).1, by unfold HasNode; rw [f3]; exact (hm k (List.mem_cons_of_mem _ hk)).2⟩
    rcases List.mem_cons.1 hn with rfl | hn
    · -- here it is copied
      obtain ⟨a, ha⟩ := hasNode_iff'.1 (hm n (by simp)).1
      obtain ⟨b, hb⟩ := hasNode_iff'.1 (hm n (by simp)).2
      have i1 : other.istoken n none = .ok (has a (qual other.ns "token")) := by
        unfold istoken; unfold nodeAttrs at ha; rw [ha]; rfl
      have i2 : g.lacksToken n = .ok (!has b (qual g.ns "token")) := by unfold lacksToken; unfold nodeAttrs at hb; rw [hb]
      have i3 : has a (qual other.ns "token") = true := by
        unfold nodeAttr at h2; rw [ha] at h2
        exact (has_iff _ _).2 ((mem_keys_iff _ _).2 ⟨_, h2⟩)
      have i4 : has b (qual g.ns "token") = false := by
        unfold nodeAttr at h1; rw [hb] at h1
        have h1 : find b (qual g.ns "token") = none := h1
        have := (find_eq_none_iff _ _).1 h1
        by_contra hc
        exact this ((has_iff _ _).1 (by simpa using hc))
      have i5 : other.getToken n = .ok v := getAttr_ok.2 h2
      unfold copyToken at hg1
      simp only [bind, Except.bind, i1, i2, i3, i4, Bool.not_false, if_true, i5] at hg1
      have hset := nodeAttr_setAttr hg1
      obtain ⟨g2, e2, -, -, -, -, e6, -⟩ := copyTokens_spec other l f1 f2 hm1
      have : g' = g2 := by
        have := e2.symm.trans he
        exact (congrArg Prod.fst this).symm
      subst this
      exact e6 _ _ _ (by rw [hset]; simp)
    · have hne : n ≠ m := fun h => nd.1 (h ▸ hn)
      have := ih f1 f2 hm1 nd.2 he n hn v (by rw [f4]; unfold nodeAttr; rw [f5 n hne]; exact h1) h2
      rw [f4] at this
      exact this

theorem mergeMeta_spec {g o : DG} (hi : Inv g) {own : Dict String Atom} (hown : g.nodeAttr g.root "metadata" = some (.dict own)) (hor : o.HasNode o.root)
    (hom : ∀ v, o.nodeAttr o.root "metadata" = some v → ∃ d, v = .dict d) :
    ∃ g', g.mergeMeta o = .ok g' ∧ Inv g' ∧ (∀ n, n ≠ g.root → g'.nodeAttrs n = g.nodeAttrs n) ∧ keys g'.nodes = keys g.nodes ∧ g'.adj = g.adj ∧ SameMeta g g' ∧
      g'.nodeAttr g.root "metadata" = some (.dict (match o.nodeAttr o.root "metadata" with | some (.dict d) => upd own d | _ => own)) := by
  obtain ⟨a, ha⟩ := hasNode_iff'.1 hor
  unfold mergeMeta
  unfold nodeAttrs at ha
  rw [ha]
  simp only
  have hval : o.nodeAttr o.root "metadata" = find a "metadata" := by unfold nodeAttr nodeAttrs; rw [ha]; rfl
  rw [hval]
  rw [hval] at hom
  cases hf : find a "metadata" with
  | none => exact ⟨g, rfl, hi, fun _ _ => rfl, rfl, rfl, SameMeta.refl g, hown⟩
  | some v =>
    obtain ⟨d, rfl⟩ := hom v hf
    have h1 : g.getAttr g.root "metadata" = .ok (.dict own) := getAttr_ok.2 hown
    obtain ⟨b, hb⟩ := nodeAttr_hasNode hown
    have h2 := setAttr_ok hb "metadata" (.dict (upd own d))
    refine ⟨_, ?_, inv_setAttr hi h2, fun n hn => nodeAttrs_setAttr h2 n hn, (setAttr_frame h2).1, (setAttr_frame h2).2.1, (setAttr_frame h2).2.2, ?_⟩
    · simp only [h1, bind, Except.bind, updMeta]; exact h2
    · rw [nodeAttr_setAttr h2]; simp

theorem adj_copyLists (g other : DG) : (g.copyLists other).adj = g.adj ∧ (g.copyLists other).root = g.root ∧ (g.copyLists other).ns = g.ns := by
  unfold copyLists
  simp only
  split <;> split <;> split <;> exact ⟨rfl, rfl, rfl⟩

theorem kd?_of_adj {g g' : DG} (h : g'.adj = g.adj) (u v : NodeId) : g'.kd? u v = g.kd? u v := by unfold kd?; rw [h]

theorem hasNode_of_same {g g' : DG} (h : ∀ n, g'.nodeAttrs n = g.nodeAttrs n) (n : NodeId) : g'.HasNode n ↔ g.HasNode n := by
  rw [hasNode_iff', hasNode_iff', h]

theorem mergeRenamed_spec {g o : DG} (hi : Inv g) (ho : Inv o) (hlg : NodesLayered False g) (hlo : NodesLayeredNE o)
    (hroot : ¬ g.HasNode o.root) (hor : o.HasNode o.root) (hgr : ¬ o.HasNode g.root) (hin : ∀ u k, ¬ o.HasEdge u o.root k)
    {own : Dict String Atom} (hown : g.nodeAttr g.root "metadata" = some (.dict own)) (hom : ∀ v, o.nodeAttr o.root "metadata" = some v → ∃ d, v = .dict d) :
    ∃ g', g.mergeRenamed o = (g', none) ∧ MergedWith g o g' := by
  have hne : g.root ≠ o.root := fun h => hgr (h ▸ hor)
  -- nodes
  obtain ⟨g1, e1, hi1, hl1, hother1, hkd1, hcopy1⟩ := addTups o.nodes hi hlg ho.wf.nodesNodup
    (fun p hp => ⟨ho.attrs.node _ _ (mem_find ho.wf.nodesNodup hp), hlo _ _ (mem_find ho.wf.nodesNodup hp)⟩)
  have r1 := (ran_addOtherNodes (g := g) ho).sameMeta
  rw [e1] at r1
  have hhas1 : ∀ n, g1.HasNode n ↔ g.HasNode n ∨ o.HasNode n := by
    intro n
    by_cases hn : n ∈ keys o.nodes
    · obtain ⟨a, ha⟩ := (mem_keys_iff _ _).1 hn
      obtain ⟨a', ha', _⟩ := hcopy1 (n, a) (find_some_mem ha)
      exact ⟨fun _ => Or.inr hn, fun _ => hasNode_iff'.2 ⟨a', ha'⟩⟩
    · rw [hasNode_iff', hother1 n hn, ← hasNode_iff']
      exact ⟨Or.inl, fun h => h.elim id (fun h => (hn h).elim)⟩
  have hc1 : ∀ n, o.HasNode n → HasCopy o g1 n := by
    intro n hn
    obtain ⟨a, ha⟩ := hasNode_iff'.1 hn
    obtain ⟨a', ha', p1, p2⟩ := hcopy1 (n, a) (find_some_mem ha)
    refine ⟨fun x v hx hv => ?_, fun l hl => ?_⟩
    · unfold nodeAttr at hv ⊢; rw [ha] at hv; rw [ha']; exact p1 x v hx hv
    · obtain ⟨b, hb, hbl⟩ := hl
      rw [ha] at hb; injection hb with hb; subst hb
      exact ⟨a', ha', p2 l hbl⟩
  -- token attributes
  obtain ⟨g2, e2, hi2, hl2, hkeys2, hadj2, hkeep2, hother2⟩ := copyTokens_spec o (keys o.nodes) hi1 hl1 (fun n hn => ⟨hn, (hhas1 n).2 (Or.inr hn)⟩)
  have r2 := (ran_copyTokens o (keys o.nodes) (g := g1)).sameMeta
  rw [e2] at r2
  have hhas2 : ∀ n, g2.HasNode n ↔ g.HasNode n ∨ o.HasNode n := by intro n; unfold HasNode; rw [hkeys2]; exact hhas1 n
  have hc2 : ∀ n, o.HasNode n → HasCopy o g2 n := fun n hn => (hc1 n hn).of_keeps (hkeep2 n)
  have hedge2 : ∀ u v k, g2.edgeAttrs u v k = g.edgeAttrs u v k := edgeAttrs_of_kd? (fun u v => by rw [kd?_of_adj hadj2, hkd1])
  -- edges
  obtain ⟨g3, new3, e3, hi3, had3, hf3⟩ := addFresh o.edges hi2 (fun ⟨u, v, k, a⟩ he =>
    ⟨ho.attrs.edge _ _ _ _ ((mem_edges_iff ho.wf _ _ _ _).1 he), ho.edges _ _ _ _ ((mem_edges_iff ho.wf _ _ _ _).1 he)⟩)
  have hends : ∀ e ∈ new3, o.HasNode e.1 ∧ o.HasNode e.2.1 ∧ e.2.1 ≠ o.root := by
    intro e he
    obtain ⟨⟨u, v, k, a⟩, hm, q1, q2, _⟩ := forall₂_right hf3 he
    have hE := (mem_edges_iff ho.wf _ _ _ _).1 hm
    obtain ⟨p, q⟩ := edge_ends ho.wf hE
    refine ⟨by rw [q1]; exact p, by rw [q2]; exact q, ?_⟩
    rw [q2]
    rintro rfl
    exact hin u k (by unfold HasEdge; rw [hE]; rfl)
  have hn3 : ∀ n, g3.nodeAttrs n = g2.nodeAttrs n := had3.nodes_same (fun e he =>
    ⟨(hhas2 _).2 (Or.inr (hends e he).1), (hhas2 _).2 (Or.inr (hends e he).2.1)⟩)
  -- lists
  have hi4 : Inv (g3.copyLists o) := (ran_copyLists g3 o).inv hi3
  obtain ⟨hadj4, hroot4, hns4⟩ := adj_copyLists g3 o
  have hn4 : ∀ n, (g3.copyLists o).nodeAttrs n = g2.nodeAttrs n := fun n => by rw [nodeAttrs_copyLists, hn3]
  have hroot4' : (g3.copyLists o).root = g.root := by rw [hroot4, had3.rest.2.2.1, r2.2.2.1, r1.2.2.1]
  have hns4' : (g3.copyLists o).ns = g.ns := by rw [hns4, had3.rest.2.1, r2.2.1, r1.2.1]
  have hown4 : (g3.copyLists o).nodeAttr (g3.copyLists o).root "metadata" = some (.dict own) := by
    rw [hroot4']
    unfold nodeAttr
    rw [hn4, hother2 _ hgr, hother1 _ hgr]
    exact hown
  obtain ⟨g5, e5, hi5, hother5, hkeys5, hadj5, hm5, hmeta5⟩ := mergeMeta_spec hi4 hown4 hor hom
  have hedge5 : ∀ u v k, g5.edgeAttrs u v k = g3.edgeAttrs u v k := edgeAttrs_of_kd? (fun u v => by rw [kd?_of_adj hadj5, kd?_of_adj hadj4])
  have hhas5 : ∀ n, g5.HasNode n ↔ g.HasNode n ∨ o.HasNode n := by
    intro n; unfold HasNode; rw [hkeys5]
    show (g3.copyLists o).HasNode n ↔ _
    rw [hasNode_of_same hn4, hhas2]; rfl
  obtain ⟨g6, new2, e6, hi6, had6, hf6⟩ := moveRootEdges_spec (o.outEdges o.root) hi5 (fun ⟨u, v, k, b⟩ he =>
    ho.attrs.edge _ _ _ _ ((mem_outEdges ho.wf _ _ _ _ _).1 he).2)
  rw [hm5.2.2.1, hm5.2.1, hroot4', hns4'] at hf6
  have hgroot : g.HasNode g.root := by obtain ⟨a, ha⟩ := nodeAttr_hasNode hown; exact hasNode_iff'.2 ⟨a, ha⟩
  have hends6 : ∀ e ∈ new2, e.1 = g.root ∧ o.HasNode e.2.1 ∧ e.2.1 ≠ o.root := by
    intro e he
    obtain ⟨⟨u, v, k, a⟩, hm, q1, q2, _⟩ := forall₂_right hf6 he
    have hE := ((mem_outEdges ho.wf _ _ _ _ _).1 hm).2
    obtain ⟨p, q⟩ := edge_ends ho.wf hE
    refine ⟨q1, by rw [q2]; exact q, ?_⟩
    rw [q2]
    rintro rfl
    exact hin _ k (by unfold HasEdge; rw [hE]; rfl)
  have hn6 : ∀ n, g6.nodeAttrs n = g5.nodeAttrs n := had6.nodes_same (fun e he =>
    ⟨by rw [(hends6 e he).1]; exact (hhas5 _).2 (Or.inl hgroot), (hhas5 _).2 (Or.inr (hends6 e he).2.1)⟩)
  have hhas6 : ∀ n, g6.HasNode n ↔ g.HasNode n ∨ o.HasNode n := fun n => by rw [hasNode_of_same hn6, hhas5]
  obtain ⟨g', e7⟩ : ∃ g', g6.removeNode o.root = .ok g' := by
    unfold removeNode
    rw [if_pos ((has_iff _ _).2 ((hhas6 _).2 (Or.inr hor)))]; exact ⟨_, rfl⟩
  obtain ⟨_, hi7, hn7, hkd7⟩ := removeNode_ok hi6 e7
  have hinE : (o.inEdges o.root).isEmpty = true := by
    rw [List.isEmpty_iff]
    apply List.eq_nil_iff_forall_not_mem.2
    rintro ⟨u, v, k, a⟩ hm
    have := (mem_inEdges ho.wf _ _ _ _ _).1 hm
    exact hin u k (by unfold HasEdge; rw [this.2]; rfl)
  have hres : g.mergeRenamed o = (g', none) := by
    unfold mergeRenamed
    simp only [e1, e2, addEdgesFrom, e3]
    unfold mergeRootnodes
    simp only [e5, hinE, if_true, e6, e7, lift]
  have hedge7 : ∀ u v k, g'.edgeAttrs u v k = if u = o.root ∨ v = o.root then none else g6.edgeAttrs u v k := by
    intro u v k
    unfold edgeAttrs
    rw [hkd7]; split <;> simp
  let new1 := new3.filter (fun e => decide (e.1 ≠ o.root))
  have hmem1 : ∀ e, e ∈ new1 ↔ e ∈ new3 ∧ e.1 ≠ o.root := by intro e; simp [new1]
  have hdisj : ∀ e ∈ new3, e.triple ∉ new2.map Edge.triple := by
    intro e he hm
    obtain ⟨e', he', ht⟩ := List.mem_map.1 hm
    have hfr := had6.fresh e' he'
    simp only [Edge.triple, Prod.mk.injEq] at ht
    apply hfr
    unfold HasEdge
    rw [hedge5, ht.1, ht.2.1, ht.2.2, had3.added e he]; rfl
  have hg_of3 : ∀ u v k, g.HasEdge u v k → g3.HasEdge u v k := by
    intro u v k hE
    by_cases hm : (u, v, k) ∈ new3.map Edge.triple
    · obtain ⟨e, he, ht⟩ := List.mem_map.1 hm
      simp only [Edge.triple, Prod.mk.injEq] at ht
      unfold HasEdge
      rw [← ht.1, ← ht.2.1, ← ht.2.2, had3.added e he]; rfl
    · unfold HasEdge at hE ⊢
      rw [had3.others _ _ _ hm, hedge2]; exact hE
  refine ⟨g', hres, ?_, ?_, ?_, ?_, ?_, ⟨new1, new2, ?_, hf6, ?_, ?_, ?_, ?_⟩, ?_, ?_⟩
  · intro n hn hnr
    have hng : n ≠ g.root := fun h => hgr (h ▸ hn)
    have hsame : g'.nodeAttrs n = g2.nodeAttrs n := by
      rw [hn7, if_neg hnr, hn6, hother5 n (by rw [hroot4']; exact hng), hn4]
    refine ⟨?_, (hc2 n hn).of_keeps (fun x v hv => by unfold nodeAttr at hv ⊢; rw [hsame]; exact hv)⟩
    obtain ⟨a, ha⟩ := hasNode_iff'.1 ((hhas2 n).2 (Or.inr hn))
    exact hasNode_iff'.2 ⟨a, by rw [hsame]; exact ha⟩
  · intro h
    obtain ⟨a, ha⟩ := hasNode_iff'.1 h
    rw [hn7, if_pos rfl] at ha; simp at ha
  · intro n h
    obtain ⟨a, ha⟩ := hasNode_iff'.1 h
    rw [hn7] at ha
    split at ha
    · simp at ha
    · exact (hhas6 n).1 (hasNode_iff'.2 ⟨a, ha⟩)
  · intro n hno hng
    rw [hn7, if_neg (fun (h : n = o.root) => hno (h ▸ hor)), hn6, hother5 n (by rw [hroot4']; exact hng), hn4, hother2 _ hno, hother1 _ hno]
  · intro own' hown'
    rw [hown] at hown'; injection hown' with hown'; injection hown' with hown'; subst hown'
    rw [hroot4'] at hmeta5
    rw [← hmeta5]
    unfold nodeAttr
    rw [hn7, if_neg hne, hn6]
  · exact forall₂_filter hf3 (fun x y h => by rw [h.1])
  · rw [List.map_append, List.nodup_append]
    refine ⟨(List.Sublist.map _ List.filter_sublist).nodup had3.distinct, had6.distinct, ?_⟩
    rintro t ht t' ht' rfl
    obtain ⟨e, he, rfl⟩ := List.mem_map.1 ht
    exact hdisj e ((hmem1 e).1 he).1 ht'
  · intro e he
    rcases List.mem_append.1 he with he | he
    · have := had3.fresh e ((hmem1 e).1 he).1
      unfold HasEdge at this ⊢
      rw [hedge2] at this; exact this
    · intro hE
      apply had6.fresh e he
      have := hg_of3 _ _ _ hE
      unfold HasEdge at this ⊢
      rw [hedge5]; exact this
  · intro e he
    rw [hedge7]
    rcases List.mem_append.1 he with he | he
    · obtain ⟨he3, hne1⟩ := (hmem1 e).1 he
      rw [if_neg (by rintro (h | h); exacts [hne1 h, (hends e he3).2.2 h]), had6.others _ _ _ (hdisj e he3), hedge5, had3.added e he3]
    · rw [if_neg (by rintro (h | h); exacts [hne ((hends6 e he).1 ▸ h), (hends6 e he).2.2 h]), had6.added e he]
  · intro u v k hm
    rw [List.map_append, List.mem_append, not_or] at hm
    rw [hedge7]
    split
    · rename_i hc
      cases hg : g.edgeAttrs u v k with
      | none => rfl
      | some a =>
        obtain ⟨p, q⟩ := edge_ends hi.wf hg
        rcases hc with rfl | rfl
        · exact (hroot p).elim
        · exact (hroot q).elim
    · rename_i hc
      rw [had6.others _ _ _ hm.2, hedge5, had3.others, hedge2]
      intro hm3
      apply hm.1
      obtain ⟨e, he, ht⟩ := List.mem_map.1 hm3
      refine List.mem_map.2 ⟨e, (hmem1 e).2 ⟨he, ?_⟩, ht⟩
      simp only [Edge.triple, Prod.mk.injEq] at ht
      rw [ht.1]
      exact fun h => hc (Or.inl h)
  · -- layers
    have hl4 : NodesLayered False (g3.copyLists o) := fun n a ha => hl2 n a (by rw [← hn4]; exact ha)
    have hl5 : NodesLayered False g5 := by
      rcases mergeMeta_ok e5 with rfl | ⟨v, h⟩
      · exact hl4
      · exact nodesLayered_setAttr (by decide) hl4 h
    intro n a ha
    rw [hn7] at ha
    split at ha
    · cases ha
    · exact hl5 n a (by rw [← hn6]; exact ha)
  · -- tokens
    intro n v hn hnr hng h1 h2
    have hng' : n ≠ g.root := fun h => hgr (h ▸ hn)
    have hsame : g'.nodeAttrs n = g2.nodeAttrs n := by
      rw [hn7, if_neg hnr, hn6, hother5 n (by rw [hroot4']; exact hng'), hn4]
    obtain ⟨a, ha⟩ := hasNode_iff'.1 hn
    have e1' := addTups_new o.nodes hi hlg ho.wf.nodesNodup
      (fun p hp => ⟨ho.attrs.node _ _ (mem_find ho.wf.nodesNodup hp), hlo _ _ (mem_find ho.wf.nodesNodup hp)⟩) e1 (n, a) (find_some_mem ha) hng
    have hns1 : g1.ns = g.ns := r1.2.1
    have := copyTokens_token o (keys o.nodes) hi1 hl1 (fun n hn => ⟨hn, (hhas1 n).2 (Or.inr hn)⟩) ho.wf.nodesNodup e2 n hn v (by
      rw [hns1]; unfold nodeAttr at h1 ⊢; rw [e1']; rw [ha] at h1; exact h1) h2
    rw [hns1] at this
    unfold nodeAttr at this ⊢
    rw [hsame]; exact this

end DG
end Dg
