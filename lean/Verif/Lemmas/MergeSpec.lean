import Verif.Lemmas.MergeKeeps
import Verif.Lemmas.AddsEdges

namespace Dg
open Dict
namespace DG

/-- node `n` of `o` is in `g`, with all its attributes and layers -/
def HasCopy (o g : DG) (n : NodeId) : Prop :=
  (∀ x v, x ≠ "layers" → o.nodeAttr n x = some v → g.nodeAttr n x = some v) ∧ ∀ l, o.NodeLayer n l → g.NodeLayer n l

theorem nodeLayer_iff (g : DG) (n : NodeId) (l : Atom) : g.NodeLayer n l ↔ ∃ xs, g.nodeAttr n "layers" = some (.set xs) ∧ l ∈ xs := by
  unfold NodeLayer AttrsLayer nodeAttr
  constructor
  · rintro ⟨a, ha, xs, hx, hl⟩; exact ⟨xs, by rw [ha]; exact hx, hl⟩
  · rintro ⟨xs, hx, hl⟩
    cases ha : g.nodeAttrs n with
    | none => rw [ha] at hx; simp at hx
    | some a => rw [ha] at hx; exact ⟨a, rfl, xs, hx, hl⟩

theorem HasCopy.of_keeps {o g g' : DG} {n : NodeId} (h : HasCopy o g n) (hk : ∀ x v, g.nodeAttr n x = some v → g'.nodeAttr n x = some v) : HasCopy o g' n := by
  refine ⟨fun x v hx hv => hk x v (h.1 x v hx hv), fun l hl => ?_⟩
  obtain ⟨xs, hx, hm⟩ := (nodeLayer_iff _ _ _).1 (h.2 l hl)
  exact (nodeLayer_iff _ _ _).2 ⟨xs, hk _ _ hx, hm⟩

theorem addTup {g : DG} (hi : Inv g) (hl : NodesLayered False g) {n : NodeId} {d : Attrs} (ndd : (keys d).Nodup) (hd : LayeredNE d) :
    ∃ g', g.addNodeItem [] (.tup n d) = .ok g' ∧ Inv g' ∧ NodesLayered False g' ∧ (∀ m, m ≠ n → g'.nodeAttrs m = g.nodeAttrs m) ∧
      (∀ u v, g'.kd? u v = g.kd? u v) ∧
      ∃ a', g'.nodeAttrs n = some a' ∧ (∀ x v, x ≠ "layers" → find d x = some v → find a' x = some v) ∧ ∀ l, AttrsLayer d l → AttrsLayer a' l := by
  obtain ⟨xs, hxs, hstr, hne⟩ := hd
  have hdef : g.defaultLayers d = d := by
    unfold defaultLayers
    rw [if_pos ((has_iff _ _).2 ((mem_keys_iff _ _).2 ⟨_, hxs⟩))]
  have hle : layersEntry d = .ok (.set xs) := by unfold layersEntry; rw [hxs]
  have hex : ∃ g', g.addNodeItem [] (.tup n d) = .ok g' := by
    unfold addNodeItem
    simp only [hdef, hle, strSet_isOk hstr, bind, Except.bind]
    cases ho : find g.nodes n with
    | none => exact ⟨_, rfl⟩
    | some old =>
      obtain ⟨ys, hys, _⟩ := hl n old ho
      simp only [layerSet, hys]
      exact ⟨_, rfl⟩
  obtain ⟨g', hg'⟩ := hex
  refine ⟨g', hg', inv_addNodeItem hi (by simp [keys]) hg', nodesLayered_addNodeItem hl (show NodeItem.Valid (.tup n d) from ndd) (by simp) (fun h => h.elim) hg', ?_, kd?_addNodeItem hi.wf hg', ?_⟩
  · intro m hm
    obtain ⟨ls, hls, _, (⟨_, rfl⟩ | ⟨old, ex, hold, hex, rfl⟩)⟩ := addNodeItem_tup_ok hg'
    · rw [nodeAttrs_newNode, if_neg hm]
    · rw [nodeAttrs_putNodes, if_neg hm]
  · obtain ⟨ls, hls, _, (⟨_, rfl⟩ | ⟨old, ex, hold, hex, rfl⟩)⟩ := addNodeItem_tup_ok hg'
    · refine ⟨upd [] (g.defaultLayers d), by rw [nodeAttrs_newNode, if_pos rfl], ?_⟩
      rw [hdef, upd_nil_of_nodup ndd]
      exact ⟨fun _ _ _ h => h, fun _ h => h⟩
    · refine ⟨_, by rw [nodeAttrs_putNodes, if_pos rfl], ?_, ?_⟩
      · intro x v hx hv
        rw [find_put_ne _ _ (Ne.symm hx), upd_nil, hdef, find_upd _ ndd, hv]; rfl
      · rintro l ⟨ys, hy, hm⟩
        rw [hdef, hxs] at hls
        rw [hxs] at hy
        injection hy with hy; injection hy with hy; subst hy
        injection hls with hls; injection hls with hls; subst hls
        exact ⟨_, find_put_self _ _ _, by simp [hm]⟩

theorem addTups (ps : List (NodeId × Attrs)) : ∀ {g : DG}, Inv g → NodesLayered False g → (keys ps).Nodup → (∀ p ∈ ps, (keys p.2).Nodup ∧ LayeredNE p.2) →
    ∃ g', g.addNodesFrom [] (ps.map (fun p => NodeItem.tup p.1 p.2)) = (g', none) ∧ Inv g' ∧ NodesLayered False g' ∧
      (∀ m, m ∉ keys ps → g'.nodeAttrs m = g.nodeAttrs m) ∧ (∀ u v, g'.kd? u v = g.kd? u v) ∧
      ∀ p ∈ ps, ∃ a', g'.nodeAttrs p.1 = some a' ∧ (∀ x v, x ≠ "layers" → find p.2 x = some v → find a' x = some v) ∧ ∀ l, AttrsLayer p.2 l → AttrsLayer a' l := by
  induction ps with
  | nil => intro g hi hl _ _; exact ⟨g, rfl, hi, hl, fun _ _ => rfl, fun _ _ => rfl, by simp⟩
  | cons p ps ih =>
    intro g hi hl nd hp
    obtain ⟨n, d⟩ := p
    obtain ⟨g1, h1, hi1, hl1, ho1, hk1, a1, ha1, hx1⟩ := addTup (n := n) hi hl (hp (n, d) (by simp)).1 (hp (n, d) (by simp)).2
    simp only [keys, List.map_cons, List.nodup_cons] at nd
    obtain ⟨g', h2, hi2, hl2, ho2, hk2, hx2⟩ := ih hi1 hl1 nd.2 (fun p hm => hp p (List.mem_cons_of_mem _ hm))
    refine ⟨g', ?_, hi2, hl2, ?_, fun u v => (hk2 u v).trans (hk1 u v), ?_⟩
    · simp only [List.map_cons]
      unfold addNodesFrom
      rw [h1]; exact h2
    · intro m hm
      simp only [keys, List.map_cons, List.mem_cons, not_or] at hm
      rw [ho2 m hm.2, ho1 m hm.1]
    · intro p hm
      rcases List.mem_cons.1 hm with rfl | hm
      · exact ⟨a1, by rw [ho2 _ nd.1]; exact ha1, hx1⟩
      · exact hx2 p hm

theorem copyToken_total {other g : DG} {n : NodeId} (ho : other.HasNode n) (hg : g.HasNode n) : ∃ g', copyToken other g n = .ok g' := by
  obtain ⟨a, ha⟩ := hasNode_iff'.1 ho
  obtain ⟨b, hb⟩ := hasNode_iff'.1 hg
  have h1 : other.istoken n none = .ok (has a (qual other.ns "token")) := by
    unfold istoken; unfold nodeAttrs at ha; rw [ha]; rfl
  have h2 : g.lacksToken n = .ok (!has b (qual g.ns "token")) := by unfold lacksToken; unfold nodeAttrs at hb; rw [hb]
  unfold copyToken
  simp only [bind, Except.bind, h1, h2]
  split
  · rename_i hc
    obtain ⟨v, hv⟩ := (mem_keys_iff _ _).1 ((has_iff _ _).1 hc)
    have h3 : other.getToken n = .ok v := getAttr_ok.2 (by unfold nodeAttr; rw [ha]; exact hv)
    simp only [h3]
    split
    · exact ⟨_, setAttr_ok hb _ _⟩
    · exact ⟨_, rfl⟩
  · exact ⟨_, rfl⟩

theorem copyTokens_spec (other : DG) (l : List NodeId) : ∀ {g : DG}, Inv g → NodesLayered False g → (∀ n ∈ l, other.HasNode n ∧ g.HasNode n) →
    ∃ g', copyTokens other g l = (g', none) ∧ Inv g' ∧ NodesLayered False g' ∧ keys g'.nodes = keys g.nodes ∧ g'.adj = g.adj ∧
      (∀ n x v, g.nodeAttr n x = some v → g'.nodeAttr n x = some v) ∧ (∀ n, n ∉ l → g'.nodeAttrs n = g.nodeAttrs n) := by
  induction l with
  | nil => intro g hi hl _; exact ⟨g, rfl, hi, hl, rfl, rfl, fun _ _ _ h => h, fun _ _ => rfl⟩
  | cons n l ih =>
    intro g hi hl hm
    obtain ⟨g1, h1⟩ := copyToken_total (hm n (by simp)).1 (hm n (by simp)).2
    have hfacts : Inv g1 ∧ NodesLayered False g1 ∧ keys g1.nodes = keys g.nodes ∧ g1.adj = g.adj ∧ (∀ m x v, g.nodeAttr m x = some v → g1.nodeAttr m x = some v) ∧
        (∀ m, m ≠ n → g1.nodeAttrs m = g.nodeAttrs m) := by
      rcases copyToken_ok h1 with rfl | ⟨hl', tok, _, h⟩
      · exact ⟨hi, hl, rfl, rfl, fun _ _ _ h => h, fun _ _ => rfl⟩
      · refine ⟨inv_setAttr hi h, nodesLayered_setAttr (qual_ne_plain (by decide)) hl h, (setAttr_frame h).1, (setAttr_frame h).2.1, ?_, fun m hm => nodeAttrs_setAttr h m hm⟩
        intro m x v hv
        refine keepsAttr_setAttr (T := fun _ => True) h ?_ m v trivial hv
        rintro rfl
        unfold nodeAttr
        cases ha : g.nodeAttrs n with
        | none => rfl
        | some a => rw [ha] at hl'; exact hl'
    obtain ⟨f1, f2, f3, f4, f5, f6⟩ := hfacts
    obtain ⟨g', e1, e2, e3, e4, e5, e6, e7⟩ := ih f1 f2 (fun m hm' => ⟨(hm m (List.mem_cons_of_mem _ hm')).1, by
      unfold HasNode; rw [f3]; exact (hm m (List.mem_cons_of_mem _ hm')).2⟩)
    refine ⟨g', ?_, e2, e3, e4.trans f3, e5.trans f4, fun m x v hv => e6 m x v (f5 m x v hv), ?_⟩
    · unfold copyTokens; rw [h1]; exact e1
    · intro m hm'
      simp only [List.mem_cons, not_or] at hm'
      rw [e7 m hm'.2, f6 m hm'.1]

/-- `new` is an edge copied from `e` -/
def EdgeCopy (e new : Edge) : Prop := new.1 = e.1 ∧ new.2.1 = e.2.1 ∧ SameAttrs e.2.2.2 new.2.2.2

theorem addFresh (es : List Edge) : ∀ {g : DG}, Inv g → (∀ e ∈ es, (keys e.2.2.2).Nodup ∧ LayeredNE e.2.2.2) →
    ∃ g' new, addEdgesLoop [] g (es.map (fun e => EdgeItem.e3 e.1 e.2.1 e.2.2.2)) = (g', none) ∧ Inv g' ∧ AddsEdges g g' new ∧ List.Forall₂ EdgeCopy es new := by
  induction es with
  | nil => intro g hi _; exact ⟨g, [], rfl, hi, addsEdges_nil g, .nil⟩
  | cons e es ih =>
    intro g hi hok
    obtain ⟨u, v, k, dd⟩ := e
    obtain ⟨g1, a, h1, hi1, hs, ha1, ha2⟩ := addEdgeItem_plain hi none (hok (u, v, k, dd) (by simp)).1 (hok (u, v, k, dd) (by simp)).2 (u := u) (v := v)
    simp only [Option.getD_none] at hs ha1 ha2
    have hfresh := not_hasEdge_freshKey (g := g) u v
    have hnone : g.edgeAttrs u v (freshKey ((g.kd? u v).getD [])) = none := by
      cases h : g.edgeAttrs u v (freshKey ((g.kd? u v).getD [])) with
      | none => rfl
      | some b => exact (hfresh (by unfold HasEdge; rw [h]; rfl)).elim
    have hsame : SameAttrs dd a := by
      refine ⟨fun x hx => ?_, fun l => ?_⟩
      · rw [ha1 x hx]; unfold edgeAttr; rw [hnone]; simp
      · rw [ha2]; unfold EdgeLayer; rw [hnone]; simp
    obtain ⟨g', new, h2, hi2, had, hf⟩ := ih hi1 (fun e he => hok e (List.mem_cons_of_mem _ he))
    refine ⟨g', (u, v, freshKey ((g.kd? u v).getD []), a) :: new, ?_, hi2, addsEdges_cons (addsEdges_single hs hfresh) had, .cons ⟨rfl, rfl, hsame⟩ hf⟩
    simp only [List.map_cons]
    rw [addEdgesLoop_cons]
    simp only [addEdgeTuple, h1]
    exact h2

/-- `new` is the edge `e` moved to the root `r`; layers are those of namespace `ns` -/
def RootCopy (r : NodeId) (ns : String) (e new : Edge) : Prop :=
  new.1 = r ∧ new.2.1 = e.2.1 ∧ (∀ x, x ≠ "layers" → find new.2.2.2 x = find e.2.2.2 x) ∧ ∀ l, AttrsLayer new.2.2.2 l ↔ l = .str ns

theorem moveRootEdges_spec (es : List Edge) : ∀ {g : DG}, Inv g → (∀ e ∈ es, (keys e.2.2.2).Nodup) →
    ∃ g' new, moveRootEdges g es = (g', none) ∧ Inv g' ∧ AddsEdges g g' new ∧ List.Forall₂ (RootCopy g.root g.ns) es new := by
  induction es with
  | nil => intro g hi _; exact ⟨g, [], rfl, hi, addsEdges_nil g, .nil⟩
  | cons e es ih =>
    intro g hi hok
    have nd1 : (keys ([] : Attrs)).Nodup := by simp [keys]
    have vad : AttrArg.Valid (.dict e.2.2.2) := hok e (by simp)
    have hex : ∃ g1, g.addEdge g.root e.2.1 (.atom .none) none (.dict e.2.2.2) [] = .ok g1 := by
      unfold addEdge
      have : g.checkLayers (.atom .none) = .ok [.str g.ns] := rfl
      simp only [this, bind, Except.bind, mergeAttrArg]
      split
      · rename_i kd hkd
        have hwf := wf_ensureNode (wf_ensureNode hi.wf g.root) e.2.1
        have hkd' : g.kd? g.root e.2.1 = some kd := by
          rw [← kd?_ensureNode hi.wf g.root, ← kd?_ensureNode (wf_ensureNode hi.wf g.root) e.2.1]
          exact hkd
        have hf : find kd (freshKey kd) = none := (find_eq_none_iff _ _).2 (freshKey_not_mem kd)
        simp [hf, layersOrEmpty]
      · exact ⟨_, rfl⟩
    obtain ⟨g1, h1⟩ := hex
    have hi1 := inv_addEdge hi nd1 vad h1
    have hview := addEdge_view hi nd1 vad h1
    have hm1 := sameMeta_addEdge' h1
    have hn1 := nodeAttrs_addEdge hi.wf nd1 vad h1
    obtain ⟨g', new, h2, hi2, had, hf⟩ := ih hi1 (fun e he => hok e (List.mem_cons_of_mem _ he))
    rw [hm1.2.2.1, hm1.2.1] at hf
    have hone : ∃ a, AddsEdges g g1 [(g.root, e.2.1, freshKey ((g.kd? g.root e.2.1).getD []), a)] ∧ (∀ x, x ≠ "layers" → find a x = find e.2.2.2 x) ∧
        ∀ l, AttrsLayer a l ↔ l = .str g.ns := by
      obtain ⟨ls, k, a, p1, p2, _, _, p5, p6, ⟨L, p7, _, p9⟩, p10⟩ := hview
      simp only [Option.getD_none] at p2
      subst p2
      have hfresh := not_hasEdge_freshKey (g := g) g.root e.2.1
      have hnone : g.edgeAttrs g.root e.2.1 (freshKey ((g.kd? g.root e.2.1).getD [])) = none := by
        cases h : g.edgeAttrs g.root e.2.1 (freshKey ((g.kd? g.root e.2.1).getD [])) with
        | none => rfl
        | some b => exact (hfresh (by unfold HasEdge; rw [h]; rfl)).elim
      refine ⟨a, addsEdges_single (setsEdge_of_view p5 p10 hm1) hfresh, ?_, ?_⟩
      · intro x hx
        rw [p6 x hx]
        unfold edgeAttr; rw [hnone]
        simp [argFind]
      · intro l
        have hls : ls = [.str g.ns] := by
          have : g.checkLayers (.atom .none) = .ok [.str g.ns] := rfl
          rw [this] at p1; injection p1 with p1; exact p1.symm
        subst hls
        constructor
        · rintro ⟨L', hL', hl⟩
          rw [p7] at hL'; injection hL' with hL'; injection hL' with hL'; subst hL'
          rcases (p9 l).1 hl with h | h
          · obtain ⟨b, hb, _⟩ := h; rw [hnone] at hb; simp at hb
          · simpa using h
        · rintro rfl
          exact ⟨L, p7, (p9 _).2 (Or.inr (by simp))⟩
    obtain ⟨a, ha1, ha2, ha3⟩ := hone
    refine ⟨g', (g.root, e.2.1, freshKey ((g.kd? g.root e.2.1).getD []), a) :: new, ?_, hi2, addsEdges_cons ha1 had, .cons ⟨rfl, rfl, ha2, ha3⟩ hf⟩
    unfold moveRootEdges
    rw [h1]; exact h2

end DG
end Dg
