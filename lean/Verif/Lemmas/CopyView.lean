import Verif.Lemmas.TigerRepair

/-! What a graph contains after all nodes and edges of another graph were copied into it. -/

namespace Dg
open Dict
namespace DG

theorem mentions_copyNodes {o : DG} {m : NodeId} : (∃ i ∈ copyNodes o, i.Mentions m) ↔ o.HasNode m := by
  unfold copyNodes HasNode keys
  simp only [List.mem_map]
  constructor
  · rintro ⟨i, ⟨p, hp, rfl⟩, hm⟩
    exact ⟨p, hp, (show m = p.1 from hm).symm⟩
  · rintro ⟨p, hp, rfl⟩
    exact ⟨_, ⟨p, hp, rfl⟩, rfl⟩

theorem mentions_copyEdges {o : DG} (wf : WF o) {m : NodeId} (h : ∃ i ∈ copyEdges o, i.Mentions m) : o.HasNode m := by
  obtain ⟨i, hi, hm⟩ := h
  obtain ⟨⟨u, v, k, a⟩, he, rfl⟩ := List.mem_map.1 hi
  have := edge_ends wf ((mem_edges_iff wf u v k a).1 he)
  rcases hm with hm | hm
  · exact hm ▸ this.1
  · exact hm ▸ this.2

theorem write_copyNodes {o : DG} (wf : WF o) {m : NodeId} {k : String} (hk : k ≠ "layers") : lastWrite m k (copyNodes o) = o.nodeAttr m k := by
  have key : ∀ ps : List (NodeId × Attrs), (keys ps).Nodup → lastWrite m k (ps.map (fun p => .node p.1 (layerStrs p.2) (del p.2 "layers"))) = (find ps m).bind (fun a => find a k) := by
    intro ps
    induction ps with
    | nil => intro _; rfl
    | cons p ps ih =>
      intro nd
      obtain ⟨n, a⟩ := p
      simp only [keys, List.map_cons, List.nodup_cons] at nd
      rw [List.map_cons, lastWrite, ih nd.2, find]
      by_cases h : n = m
      · subst h
        rw [if_pos rfl, (find_eq_none_iff _ _).2 nd.1]
        simp only [Instr.write, if_true, find_del_ne hk]
        rfl
      · rw [if_neg h]
        simp only [Instr.write, if_neg (Ne.symm h)]
        cases (find ps m).bind (fun a => find a k) <;> rfl
  unfold copyNodes
  rw [key _ wf.nodesNodup]
  unfold nodeAttr nodeAttrs
  cases find o.nodes m <;> rfl

theorem layer_copyNodes {o : DG} (wf : WF o) (ol : NodesLayered False o) {m : NodeId} {l : Atom} : (∃ i ∈ copyNodes o, i.GivesLayer m l) ↔ o.NodeLayer m l := by
  unfold copyNodes NodeLayer
  simp only [List.mem_map]
  constructor
  · rintro ⟨i, ⟨⟨n, a⟩, hp, rfl⟩, h1, h2⟩
    dsimp only at h1 h2
    subst h1
    have ha : o.nodeAttrs m = some a := mem_find wf.nodesNodup hp
    exact ⟨a, ha, (mem_layerStrs (ol m a ha) l).1 h2⟩
  · rintro ⟨a, ha, h⟩
    exact ⟨_, ⟨(m, a), find_some_mem ha, rfl⟩, rfl, (mem_layerStrs (ol m a ha) l).2 h⟩

theorem count_copyEdges {o : DG} (wf : WF o) (u v : NodeId) : (copyEdges o).countP (Instr.isEdge u v) = o.edgeCount u v := by
  unfold copyEdges
  rw [List.countP_map]
  have hadj : (keys o.adj).Nodup := by rw [wf.adjKeys]; exact wf.nodesNodup
  have hnb := wf.nbrsNodup
  have h1 : ∀ w : NodeId, ∀ q : NodeId × Dict Key Attrs, (q.2.map (fun r => ((w, q.1, r.1, r.2) : Edge))).countP (Instr.isEdge u v ∘ fun e => .edge e.1 e.2.1 (layerStrs e.2.2.2) (del e.2.2.2 "layers")) = if w = u ∧ q.1 = v then q.2.length else 0 := by
    intro w q
    rw [List.countP_map]
    by_cases h : w = u ∧ q.1 = v
    · rw [if_pos h, List.countP_eq_length]
      intro r _
      simp [Instr.isEdge, h.1, h.2]
    · rw [if_neg h, List.countP_eq_zero]
      intro r _
      simp only [Function.comp_apply, Instr.isEdge, decide_eq_true_eq]
      rintro ⟨e1, e2⟩
      exact h ⟨e1.symm, e2.symm⟩
  have h2 : ∀ w : NodeId, ∀ nb : Dict NodeId (Dict Key Attrs), (keys nb).Nodup → (nb.flatMap (fun q => q.2.map (fun r => ((w, q.1, r.1, r.2) : Edge)))).countP (Instr.isEdge u v ∘ fun e => .edge e.1 e.2.1 (layerStrs e.2.2.2) (del e.2.2.2 "layers")) = if w = u then ((find nb v).getD []).length else 0 := by
    intro w nb
    induction nb with
    | nil => intro _; simp [find]
    | cons q nb ih =>
      intro nd
      simp only [keys, List.map_cons, List.nodup_cons] at nd
      rw [List.flatMap_cons, List.countP_append, h1, ih nd.2, find]
      by_cases hw : w = u
      · simp only [hw, true_and, if_true]
        by_cases hq : q.1 = v
        · rw [if_pos hq, if_pos hq, (find_eq_none_iff _ _).2 (hq ▸ nd.1)]
          rfl
        · rw [if_neg hq, if_neg hq, Nat.zero_add]
      · simp [hw]
  have h3 : ∀ adj : Dict NodeId (Dict NodeId (Dict Key Attrs)), (keys adj).Nodup → (∀ w nb, find adj w = some nb → (keys nb).Nodup) → (adj.flatMap (fun p => p.2.flatMap (fun q => q.2.map (fun r => ((p.1, q.1, r.1, r.2) : Edge))))).countP
      (Instr.isEdge u v ∘ fun e => .edge e.1 e.2.1 (layerStrs e.2.2.2) (del e.2.2.2 "layers")) = (((find adj u).bind (fun nb => find nb v)).getD []).length := by
    intro adj
    induction adj with
    | nil => intro _ _; rfl
    | cons p adj ih =>
      intro nd hnb
      have hp : (keys p.2).Nodup := hnb p.1 p.2 (by simp [find])
      simp only [keys, List.map_cons, List.nodup_cons] at nd
      have hrest : ∀ w nb, find adj w = some nb → (keys nb).Nodup := by
        intro w nb hf
        refine hnb w nb ?_
        rw [find, if_neg ?_]
        · exact hf
        · rintro rfl
          exact nd.1 ((mem_keys_iff _ _).2 ⟨nb, hf⟩)
      rw [List.flatMap_cons, List.countP_append, h2 p.1 p.2 hp, ih nd.2 hrest, find]
      by_cases hw : p.1 = u
      · rw [if_pos hw, if_pos hw, show find adj u = none from (find_eq_none_iff adj u).2 (hw ▸ nd.1)]
        rfl
      · rw [if_neg hw, if_neg hw, Nat.zero_add]
  have := h3 o.adj hadj hnb
  unfold edges edgeCount kd?
  exact this

theorem not_implicit_copyNodes {o : DG} {m : NodeId} : ¬ Implicit m (copyNodes o) := by
  unfold copyNodes
  induction o.nodes with
  | nil => exact id
  | cons p ps ih =>
    rw [List.map_cons, Implicit]
    rintro (h | h)
    · exact h.2
    · exact ih h.2

/-- the calls for copying a graph and adding further edges between existing nodes -/
structure CopyView (g o : DG) (es' : List EdgeSpec) (g' : DG) : Prop where
  nodes : ∀ m, g'.HasNode m ↔ g.HasNode m ∨ o.HasNode m
  attr : ∀ m k, k ≠ "layers" → g'.nodeAttr m k = (o.nodeAttr m k).or (g.nodeAttr m k)
  layer : ∀ m l, g'.NodeLayer m l ↔ g.NodeLayer m l ∨ o.NodeLayer m l
  edges : ∀ es eo, EdgesAre g es → EdgesAre o eo → EdgesAre g' (es ++ (eo ++ es'))

theorem copyView {g o g' : DG} (oi : Inv o) (ol : NodesLayered False o) {es' : List EdgeSpec} (hends : ∀ e ∈ es', (g.HasNode e.source ∨ o.HasNode e.source) ∧ (g.HasNode e.target ∨ o.HasNode e.target))
    (b : Built g ((copyNodes o ++ copyEdges o) ++ edgeCalls es') g') : CopyView g o es' g' := by
  have hmE : ∀ m, (∃ i ∈ edgeCalls es', i.Mentions m) → g.HasNode m ∨ o.HasNode m := by
    rintro m ⟨i, hi, hm⟩
    obtain ⟨e, he, rfl⟩ := List.mem_map.1 hi
    rcases hm with rfl | rfl
    · exact (hends e he).1
    · exact (hends e he).2
  have hment : ∀ m, (g.HasNode m ∨ ∃ i ∈ (copyNodes o ++ copyEdges o) ++ edgeCalls es', i.Mentions m) ↔ g.HasNode m ∨ o.HasNode m := by
    intro m
    constructor
    · rintro (h | ⟨i, hi, hm⟩)
      · exact .inl h
      · rcases List.mem_append.1 hi with hi | hi
        · rcases List.mem_append.1 hi with hi | hi
          · exact .inr (mentions_copyNodes.1 ⟨i, hi, hm⟩)
          · exact .inr (mentions_copyEdges oi.wf ⟨i, hi, hm⟩)
        · exact hmE m ⟨i, hi, hm⟩
    · rintro (h | h)
      · exact .inl h
      · obtain ⟨i, hi, hm⟩ := mentions_copyNodes.2 h
        exact .inr ⟨i, List.mem_append_left _ (List.mem_append_left _ hi), hm⟩
  have hwE : ∀ m k, lastWrite m k (copyEdges o) = none := by
    intro m k
    apply lastWrite_none
    intro i hi
    obtain ⟨e, _, rfl⟩ := List.mem_map.1 hi
    rfl
  refine ⟨fun m => (b.nodes m).trans (hment m), ?_, ?_, ?_⟩
  · intro m k hk
    rw [b.attr m k hk, lastWrite_append, lastWrite_append, no_write_edges, hwE, write_copyNodes oi.wf hk]
    rfl
  · intro m l
    rw [b.layer]
    have h1 : (∃ i ∈ (copyNodes o ++ copyEdges o) ++ edgeCalls es', i.GivesLayer m l) ↔ o.NodeLayer m l := by
      rw [← layer_copyNodes oi.wf ol]
      constructor
      · rintro ⟨i, hi, h⟩
        rcases List.mem_append.1 hi with hi | hi
        · rcases List.mem_append.1 hi with hi | hi
          · exact ⟨i, hi, h⟩
          · obtain ⟨e, _, rfl⟩ := List.mem_map.1 hi
            exact h.elim
        · exact (no_layer_edges m l ⟨i, hi, h⟩).elim
      · rintro ⟨i, hi, h⟩
        exact ⟨i, List.mem_append_left _ (List.mem_append_left _ hi), h⟩
    have h2 : ¬ (¬ g.HasNode m ∧ Implicit m ((copyNodes o ++ copyEdges o) ++ edgeCalls es') ∧ l = .str g.ns) := by
      rintro ⟨hg, hi, _⟩
      have him : ∀ s : List Instr, Implicit m s → ∃ i ∈ s, i.Mentions m := by
        intro s
        induction s with
        | nil => exact False.elim
        | cons i s ih =>
          rintro (h | h)
          · exact ⟨i, by simp, h.1⟩
          · obtain ⟨j, hj, h⟩ := ih h.2
            exact ⟨j, List.mem_cons_of_mem _ hj, h⟩
      have ho : o.HasNode m := ((hment m).1 (.inr (him _ hi))).resolve_left hg
      rw [List.append_assoc, implicit_append] at hi
      rcases hi with hi | ⟨hi, _⟩
      · exact not_implicit_copyNodes hi
      · obtain ⟨i, hi2, hm⟩ := mentions_copyNodes.2 ho
        exact hi i hi2 hm
    rw [h1]
    generalize (¬ g.HasNode m ∧ Implicit m ((copyNodes o ++ copyEdges o) ++ edgeCalls es') ∧ l = .str g.ns) = X at h2 ⊢
    tauto
  · intro es eo he ho
    have hmem : ∀ u v ls at', Instr.edge u v ls at' ∈ (copyNodes o ++ copyEdges o) ++ edgeCalls es' ↔ Instr.edge u v ls at' ∈ copyEdges o ∨ (⟨u, v, ls, at'⟩ : EdgeSpec) ∈ es' := by
      intro u v ls at'
      rw [List.mem_append, List.mem_append, mem_edgeCalls]
      have : Instr.edge u v ls at' ∉ copyNodes o := by
        intro h
        obtain ⟨p, _, h⟩ := List.mem_map.1 h
        cases h
      simp [this]
    have hmatch : ∀ {a a0 : Attrs}, LayeredNE a0 → (MatchesArgs a (layerStrs a0) (del a0 "layers") ↔ (∀ k, k ≠ "layers" → find a k = find a0 k) ∧ ∀ l, AttrsLayer a l ↔ AttrsLayer a0 l) := by
      intro a a0 hl
      have hl' : LayeredB False a0 := by obtain ⟨xs, h1, h2, _⟩ := hl; exact ⟨xs, h1, h2, fun h => h.elim⟩
      unfold MatchesArgs
      simp only [mem_layerStrs hl']
      constructor
      · rintro ⟨h1, h2⟩
        exact ⟨fun k hk => by rw [h1 k hk, find_del_ne hk], h2⟩
      · rintro ⟨h1, h2⟩
        exact ⟨fun k hk => by rw [h1 k hk, find_del_ne hk], h2⟩
    refine ⟨?_, ?_, ?_⟩
    · intro u v a h
      rcases b.edgeOf u v a h with h | ⟨ls, at', h, hm⟩
      · obtain ⟨e, h1, h2⟩ := he.sound u v a h
        exact ⟨e, List.mem_append_left _ h1, h2⟩
      · rcases (hmem u v ls at').1 h with h | h
        · obtain ⟨⟨u', v', k, a0⟩, hE, heq⟩ := List.mem_map.1 h
          injection heq with h1 h2 h3 h4
          dsimp only at h1 h2 h3 h4
          subst h1 h2 h3 h4
          have hE := (mem_edges_iff oi.wf _ _ k a0).1 hE
          obtain ⟨e, e1, e2, e3, e4⟩ := ho.sound _ _ a0 ⟨k, hE⟩
          have hm := (hmatch (oi.edges _ _ _ _ hE)).1 hm
          exact ⟨e, List.mem_append_right _ (List.mem_append_left _ e1), e2, e3, fun k hk => by rw [hm.1 k hk, e4.1 k hk], fun l => by rw [hm.2 l, e4.2 l]⟩
        · exact ⟨_, List.mem_append_right _ (List.mem_append_right _ h), rfl, rfl, hm⟩
    · intro e hE
      rcases List.mem_append.1 hE with hE | hE
      · obtain ⟨a, ha, hm⟩ := he.complete e hE
        exact ⟨a, b.edgeOld _ _ _ ha, hm⟩
      · rcases List.mem_append.1 hE with hE | hE
        · obtain ⟨a0, ⟨k, ha⟩, hm⟩ := ho.complete e hE
          obtain ⟨a, h1, h2⟩ := b.edgeNew e.source e.target (layerStrs a0) (del a0 "layers") ((hmem _ _ _ _).2 (.inl (List.mem_map.2 ⟨(e.source, e.target, k, a0), (mem_edges_iff oi.wf _ _ k a0).2 ha, rfl⟩)))
          have h2 := (hmatch (oi.edges _ _ _ _ ha)).1 h2
          exact ⟨a, h1, fun k hk => by rw [h2.1 k hk, hm.1 k hk], fun l => by rw [h2.2 l, hm.2 l]⟩
        · exact b.edgeNew _ _ _ _ ((hmem _ _ _ _).2 (.inr hE))
    · intro u v
      have h0 : (copyNodes o).countP (Instr.isEdge u v) = 0 := by
        rw [List.countP_eq_zero]
        intro i hi
        obtain ⟨p, _, rfl⟩ := List.mem_map.1 hi
        simp [Instr.isEdge]
      rw [b.count, he.count, List.countP_append, List.countP_append, count_copyEdges oi.wf, ho.count, count_edgeCalls, h0, List.countP_append, List.countP_append, Nat.zero_add]

end DG
end Dg
