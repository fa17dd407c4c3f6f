import Verif.Lemmas.TigerFile
import Batteries.Data.List.Perm

/-! Attaching unconnected nodes; the sentence graph. -/

namespace Dg
open Dict
namespace DG

/-! ### edges of a graph after further calls -/

theorem EdgesAre.built {g g' : DG} {es es' : List EdgeSpec} {s : List Instr} (h : EdgesAre g es) (b : Built g s g') (hm : ∀ u v ls at', Instr.edge u v ls at' ∈ s ↔ (⟨u, v, ls, at'⟩ : EdgeSpec) ∈ es')
    (hc : ∀ u v, s.countP (Instr.isEdge u v) = es'.countP (fun e => decide (e.source = u ∧ e.target = v))) : EdgesAre g' (es ++ es') := by
  refine ⟨?_, ?_, ?_⟩
  · intro u v a he
    rcases b.edgeOf u v a he with he | ⟨ls, at', he, hma⟩
    · obtain ⟨e, he, h1⟩ := h.sound u v a he
      exact ⟨e, List.mem_append_left _ he, h1⟩
    · exact ⟨_, List.mem_append_right _ ((hm u v ls at').1 he), rfl, rfl, hma⟩
  · intro e he
    rcases List.mem_append.1 he with he | he
    · obtain ⟨a, ha, hma⟩ := h.complete e he
      exact ⟨a, b.edgeOld _ _ _ ha, hma⟩
    · exact b.edgeNew _ _ _ _ ((hm _ _ _ _).2 he)
  · intro u v
    rw [b.count, h.count, hc, List.countP_append]

theorem EdgesAre.perm {g : DG} {es es' : List EdgeSpec} (h : EdgesAre g es) (hp : List.Perm es es') : EdgesAre g es' := by
  refine ⟨?_, ?_, ?_⟩
  · intro u v a he
    obtain ⟨e, he, h1⟩ := h.sound u v a he
    exact ⟨e, hp.mem_iff.1 he, h1⟩
  · intro e he
    exact h.complete e (hp.mem_iff.2 he)
  · intro u v
    rw [h.count, hp.countP_eq]

/-- edges as calls -/
def edgeCalls (es : List EdgeSpec) : List Instr := es.map (fun e => .edge e.source e.target e.layers e.attrs)

theorem mem_edgeCalls {es : List EdgeSpec} (u v : NodeId) (ls : List String) (at' : Attrs) : Instr.edge u v ls at' ∈ edgeCalls es ↔ (⟨u, v, ls, at'⟩ : EdgeSpec) ∈ es := by
  unfold edgeCalls
  rw [List.mem_map]
  constructor
  · rintro ⟨e, he, h⟩
    injection h with h1 h2 h3 h4
    subst h1 h2 h3 h4
    exact he
  · intro h
    exact ⟨_, h, rfl⟩

theorem count_edgeCalls (es : List EdgeSpec) (u v : NodeId) : (edgeCalls es).countP (Instr.isEdge u v) = es.countP (fun e => decide (e.source = u ∧ e.target = v)) := by
  unfold edgeCalls
  rw [List.countP_map]
  apply List.countP_congr
  intro e _
  simp only [Function.comp_apply, Instr.isEdge, decide_eq_true_eq]
  exact ⟨fun h => ⟨h.1.symm, h.2.symm⟩, fun h => ⟨h.1.symm, h.2.symm⟩⟩

theorem edgeCalls_ok {es : List EdgeSpec} (h : ∀ e ∈ es, e.layers ≠ [] ∧ (keys e.attrs).Nodup) : ∀ has : NodeId → Prop, ScriptOk has (edgeCalls es) := by
  induction es with
  | nil => intro _; trivial
  | cons e es ih =>
    intro has
    exact ⟨h e (by simp), ih (fun x hx => h x (List.mem_cons_of_mem _ hx)) _⟩

/-! ### isolated nodes -/

theorem degree_zero {g : DG} (wf : WF g) {es : List EdgeSpec} (h : EdgesAre g es) (n : NodeId) : g.degree n = 0 ↔ ∀ e ∈ es, e.source ≠ n ∧ e.target ≠ n := by
  unfold degree
  constructor
  · intro hd e he
    have h1 : g.outEdges n = [] := List.eq_nil_of_length_eq_zero (by omega)
    have h2 : g.inEdges n = [] := List.eq_nil_of_length_eq_zero (by omega)
    obtain ⟨a, ⟨k, hk⟩, _⟩ := h.complete e he
    constructor
    · rintro rfl
      have := (mem_outEdges wf e.source e.source e.target k a).2 ⟨rfl, hk⟩
      rw [h1] at this; cases this
    · rintro rfl
      have := (mem_inEdges wf e.target e.source e.target k a).2 ⟨rfl, hk⟩
      rw [h2] at this; cases this
  · intro hn
    have h1 : g.outEdges n = [] := by
      rw [List.eq_nil_iff_forall_not_mem]
      rintro ⟨u, v, k, a⟩ hm
      obtain ⟨rfl, hm⟩ := (mem_outEdges wf n u v k a).1 hm
      obtain ⟨e, he, h2, _⟩ := h.sound u v a ⟨k, hm⟩
      exact (hn e he).1 h2
    have h2 : g.inEdges n = [] := by
      rw [List.eq_nil_iff_forall_not_mem]
      rintro ⟨u, v, k, a⟩ hm
      obtain ⟨rfl, hm⟩ := (mem_inEdges wf n u v k a).1 hm
      obtain ⟨e, he, _, h2, _⟩ := h.sound u v a ⟨k, hm⟩
      exact (hn e he).2 h2
    rw [h1, h2]
    rfl

theorem FileGraph.perm {p : String} {s : TigerS} {g : DG} (h : FileGraph p s g) (hv : s.Valid) : List.Perm (keys g.nodes) s.declared :=
  (List.perm_ext_iff_of_nodup h.inv.wf.nodesNodup hv.unique).2 h.nodes

theorem unconnected_perm {p : String} {s : TigerS} {g : DG} (h : FileGraph p s g) (hv : s.Valid) : List.Perm g.getUnconnectedNodes (isolated p s) := by
  unfold getUnconnectedNodes isolated
  have hl : g.nodes.length = s.declared.length := by
    have := (h.perm hv).length_eq
    simpa [keys] using this
  rw [hl]
  refine List.Perm.trans ((h.perm hv).filter _) ?_
  rw [List.filter_congr (q := fun n => decide (s.declared.length > 1 ∧ ∀ e ∈ fileEdges p s, e.source ≠ n ∧ e.target ≠ n))]
  intro n _
  rw [decide_eq_decide, degree_zero h.inv.wf h.edges]
  exact and_comm

/-! ### the sentence graph -/

/-- the graph of a sentence -/
structure SentGraph (p : String) (s : TigerS) (g : DG) : Prop where
  inv : Inv g
  layered : NodesLayered False g
  ns : g.ns = p
  root : g.root = topNode p s
  tokens : g.tokens = sentToks s
  nodes : ∀ m, g.HasNode m ↔ m ∈ s.declared ∨ m = topNode p s
  attr : ∀ m k, k ≠ "layers" → g.nodeAttr m k = sentAttr p s m k
  layer : ∀ m ∈ s.declared, ∀ l, g.NodeLayer m l ↔ l ∈ (nodeLayers p s m).map Atom.str
  vroot : s.root ∈ s.toks → ∀ l, g.NodeLayer (.str (qual p "VROOT")) l ↔ l ∈ vrootLayers.map Atom.str
  edges : EdgesAre g (sentEdges p s)

theorem token_attr {p : String} {s : TigerS} (hv : s.Valid) {n : NodeId} (hn : n ∈ s.declared) : (sentAttr p s n (qual p "token")).isSome = decide (n ∈ s.toks) := by
  have nd := hv.unique
  unfold TigerS.declared TigerS.toks at nd
  rw [List.nodup_append] at nd
  obtain ⟨nd1, nd2, nd3⟩ := nd
  unfold sentAttr
  rw [if_neg (fun h => qual_ne_plain (by decide) h)]
  by_cases ht : n ∈ s.toks
  · obtain ⟨t, ht', rfl⟩ := List.mem_map.1 ht
    rw [find_unique nd1 ht']
    simp [termAttr, ht]
  · have hnt : n ∈ s.nts.map TigerNt.node := (List.mem_append.1 hn).resolve_left ht
    have : s.terms.find? (fun t => decide (t.node = n)) = none := by
      rw [List.find?_eq_none]
      intro x hx e
      exact ht (by rw [show n = x.node from by simpa using Eq.symm (of_decide_eq_true e)]; exact List.mem_map_of_mem hx)
    rw [this]
    obtain ⟨t, ht', rfl⟩ := List.mem_map.1 hnt
    have h2 := find_unique nd2 ht'
    rw [h2]
    simp only [ht, decide_false]
    unfold ntAttr
    rw [if_neg (fun h => qual_ne_plain (by decide) h), find_xmlAttrs, (find_eq_none_iff _ _).2 (hv.noToken t ht')]
    rfl

theorem sentAttr_other {p : String} {s : TigerS} (hv : s.Valid) {n : NodeId} (hn : n ∉ s.declared) (k : String) : sentAttr p s n k = none := by
  unfold sentAttr
  have h1 : s.terms.find? (fun t => decide (t.node = n)) = none := by
    rw [List.find?_eq_none]
    intro x hx e
    exact hn (List.mem_append_left _ (by rw [show n = x.node from (of_decide_eq_true e).symm]; exact List.mem_map_of_mem hx))
  have h2 : s.nts.find? (fun t => decide (t.node = n)) = none := by
    rw [List.find?_eq_none]
    intro x hx e
    exact hn (List.mem_append_right _ (by rw [show n = x.node from (of_decide_eq_true e).symm]; exact List.mem_map_of_mem hx))
  rw [h1, h2]
  split
  · rw [if_neg (fun h => hn (by rw [h]; exact hv.root))]
  · rfl

/-- the edge to an isolated node -/
def attachEdge (p : String) (u n : NodeId) : EdgeSpec := ⟨u, n, [p, qual p "sentence", qual p "unconnected"], [("edge_type", strV "dominates")]⟩

theorem attach_built {p : String} {u : NodeId} {g : DG} (hi : Inv g) (hl : NodesLayered False g) (hns : g.ns = p) (hr : g.root = u) (xs : List NodeId) :
    ∃ g', xs.foldlM tigerAttach g = .ok g' ∧ Built g (edgeCalls (xs.map (attachEdge p u))) g' := by
  have h := foldlM_calls (ns := p) (r := u) tigerAttach (fun n => edgeCalls [attachEdge p u n]) xs (by
    intro g1 n _ h1 h2
    unfold tigerAttach
    rw [h1, h2]
    exact (execs_one g1 (.edge u n [p, qual p "sentence", qual p "unconnected"] [("edge_type", strV "dominates")])).symm) g hns hr
  have e : xs.flatMap (fun n => edgeCalls [attachEdge p u n]) = edgeCalls (xs.map (attachEdge p u)) := by
    clear h
    induction xs with
    | nil => rfl
    | cons x xs ih => rw [List.flatMap_cons, List.map_cons, ih]; rfl
  obtain ⟨g', e', b⟩ := execs_built (edgeCalls (xs.map (attachEdge p u))) hi hl (edgeCalls_ok (by
    intro e he
    obtain ⟨n, _, rfl⟩ := List.mem_map.1 he
    exact ⟨by simp [attachEdge], by simp [attachEdge, keys]⟩) _)
  exact ⟨g', by rw [h, e, e'], b⟩

theorem no_write_edges {es : List EdgeSpec} (m : NodeId) (k : String) : lastWrite m k (edgeCalls es) = none := by
  apply lastWrite_none
  intro i hi
  obtain ⟨e, _, rfl⟩ := List.mem_map.1 hi
  rfl

theorem no_layer_edges {es : List EdgeSpec} (m : NodeId) (l : Atom) : ¬ ∃ i ∈ edgeCalls es, i.GivesLayer m l := by
  rintro ⟨i, hi, h⟩
  obtain ⟨e, _, rfl⟩ := List.mem_map.1 hi
  exact h

theorem tigerRepair_graph {p : String} {s : TigerS} {g : DG} (h : FileGraph p s g) (hv : s.Valid) (hx : NodeId.str (qual p "VROOT") ∉ s.declared) : ∃ g', g.tigerRepair = .ok g' ∧ SentGraph p s g' := by
  have hroot : g.HasNode s.root := (h.nodes _).2 hv.root
  have htok : g.istoken g.root none = .ok (decide (s.root ∈ s.toks)) := by
    obtain ⟨a, ha⟩ := (hasNode_some g s.root).1 hroot
    have h1 := h.attr s.root (qual p "token") (fun e => qual_ne_plain (by decide) e)
    have h2 := token_attr (p := p) hv hv.root
    rw [← h1] at h2
    unfold istoken
    unfold nodeAttr at h2
    rw [h.root]
    have ha' : find g.nodes s.root = some a := ha
    rw [ha'] 
    rw [ha] at h2
    simp only [Option.getD_none]
    rw [h.ns, ← h2]
    refine congrArg Except.ok ?_
    show has a _ = (find a (qual p "token")).isSome
    cases hf : find a (qual p "token") with
    | none => exact (has_false_iff _ _).2 (by rw [← find_eq_none_iff]; exact hf)
    | some v => exact (has_iff _ _).2 ((mem_keys_iff _ _).2 ⟨v, hf⟩)
  have hperm := unconnected_perm h hv
  have hsub : ∀ n ∈ g.getUnconnectedNodes, n ∈ s.declared := by
    intro n hn
    have := hperm.mem_iff.1 hn
    exact (List.mem_filter.1 this).1
  have hedges : ∀ u, List.Perm (fileEdges p s ++ (g.getUnconnectedNodes.map (attachEdge p u))) (fileEdges p s ++ ((isolated p s).map (attachEdge p u))) := fun u => (hperm.map _).append_left _
  unfold tigerRepair
  have hments : ∀ {es : List EdgeSpec} {m : NodeId}, (∃ i ∈ edgeCalls es, i.Mentions m) → ∃ e ∈ es, m = e.source ∨ m = e.target := by
    rintro es m ⟨i, hi, hm⟩
    obtain ⟨e, he, rfl⟩ := List.mem_map.1 hi
    exact ⟨e, he, hm⟩
  by_cases hr : s.root ∈ s.toks
  · have htop : topNode p s = .str (qual p "VROOT") := by unfold topNode; rw [if_pos hr]
    have b0 := (built_nil h.inv h.layered).withRoot (.str (qual p "VROOT"))
    obtain ⟨g1, e1, b1⟩ := built_node b0.inv b0.layered (.str (qual p "VROOT")) (ls := vrootLayers) (at' := []) (by simp [vrootLayers]) (by simp [keys])
    have hv1 : g.tigerVroot = .ok g1 := by
      unfold tigerVroot
      rw [htok]
      show (if decide (s.root ∈ s.toks) = true then _ else _) = _
      rw [if_pos (decide_eq_true hr), ← e1]
      show DG.addNode { g with root := .str (qual g.ns "VROOT") } (.str (qual g.ns "VROOT")) _ _ _ = DG.addNode { g with root := .str (qual p "VROOT") } (.str (qual p "VROOT")) _ _ _
      rw [h.ns]
      rfl
    obtain ⟨g2, e2, b2⟩ := attach_built (p := p) b1.inv b1.layered (b1.ns.trans h.ns) (b1.root.trans (rfl : _ = NodeId.str (qual p "VROOT"))) g.getUnconnectedNodes
    refine ⟨g2, ?_, ?_⟩
    · show (g.tigerVroot >>= _) = _
      rw [hv1]
      exact e2
    have b := built_append b0.inv b0.layered b1 b2
    have hno : ¬ DG.HasNode { g with root := .str (qual p "VROOT") } (.str (qual p "VROOT")) := fun hn => hx ((h.nodes _).1 hn)
    refine ⟨b.inv, b.layered, b.ns.trans h.ns, b.root.trans htop.symm, ?_, ?_, ?_, ?_, ?_, ?_⟩
    · rw [b2.tokens, b1.tokens]
      show g.tokens ++ _ ++ _ = _
      rw [h.tokens]
      have : (edgeCalls (g.getUnconnectedNodes.map (attachEdge p (.str (qual p "VROOT"))))).flatMap Instr.newTokens = [] := by simp [edgeCalls, Instr.newTokens]
      rw [this]
      simp [Instr.newTokens]
    · intro m
      rw [b.nodes, htop]
      constructor
      · rintro (hm | ⟨i, hi, hm⟩)
        · exact .inl ((h.nodes m).1 hm)
        · rcases List.mem_append.1 hi with hi | hi
          · obtain rfl := List.mem_singleton.1 hi
            exact .inr hm
          · obtain ⟨e, he, hm⟩ := hments ⟨i, hi, hm⟩
            obtain ⟨n, hn, rfl⟩ := List.mem_map.1 he
            rcases hm with hm | hm
            · exact .inr hm
            · exact .inl (hm ▸ hsub n hn)
      · rintro (hm | rfl)
        · exact .inl ((h.nodes m).2 hm)
        · exact .inr ⟨.node (.str (qual p "VROOT")) vrootLayers [], by simp, rfl⟩
    · intro m k hk
      rw [b2.attr m k hk, no_write_edges, b1.attr m k hk]
      simp only [lastWrite, Instr.write]
      show Option.or none (Option.or (if m = _ then none else none) (g.nodeAttr m k)) = _
      rw [ite_self, h.attr m k hk]
      rfl
    · intro m hm l
      have hmn : m ≠ .str (qual p "VROOT") := fun e => hx (e ▸ hm)
      rw [b2.layer, b1.layer]
      have h1 : ¬ ∃ i ∈ [Instr.node (.str (qual p "VROOT")) vrootLayers []], i.GivesLayer m l := by
        rintro ⟨i, hi, hg⟩
        obtain rfl := List.mem_singleton.1 hi
        exact hmn hg.1
      have h2 : DG.HasNode { g with root := .str (qual p "VROOT") } m := (h.nodes m).2 hm
      have h3 : g1.HasNode m := (b1.nodes m).2 (.inl h2)
      simp only [h1, h2, h3, no_layer_edges, not_true_eq_false, false_and, or_false]
      exact h.layer m hm l
    · intro _ l
      rw [b2.layer, b1.layer]
      have h3 : g1.HasNode (.str (qual p "VROOT")) := (b1.nodes _).2 (.inr ⟨_, List.mem_singleton.2 rfl, rfl⟩)
      have h0 : ¬ DG.NodeLayer { g with root := .str (qual p "VROOT") } (.str (qual p "VROOT")) l := by
        rintro ⟨a, ha, _⟩
        exact hno ((hasNode_some _ _).2 ⟨a, ha⟩)
      have h4 : ¬ Implicit (.str (qual p "VROOT")) [Instr.node (.str (qual p "VROOT")) vrootLayers []] := by simp [Implicit, Instr.IsEdge, Instr.Mentions]
      have h5 := no_layer_edges (es := g.getUnconnectedNodes.map (attachEdge p (.str (qual p "VROOT")))) (.str (qual p "VROOT")) l
      simp only [h0, h3, h4, h5, not_true_eq_false, false_and, and_false, or_false, false_or, List.mem_singleton, exists_eq_left]
      exact ⟨fun h => h.2, fun h => ⟨rfl, h⟩⟩
    · have he0 : EdgesAre { g with root := .str (qual p "VROOT") } (fileEdges p s) := ⟨h.edges.sound, h.edges.complete, h.edges.count⟩
      have he1 := he0.built (es' := []) b1 (by simp) (by simp [Instr.isEdge])
      have he2 := he1.built b2 (mem_edgeCalls (es := g.getUnconnectedNodes.map (attachEdge p (.str (qual p "VROOT"))))) (count_edgeCalls _)
      rw [List.append_nil] at he2
      have := he2.perm (hedges _)
      unfold sentEdges
      rw [htop]
      exact this
  · have htop : topNode p s = s.root := by unfold topNode; rw [if_neg hr]
    have hv1 : g.tigerVroot = .ok g := by
      unfold tigerVroot
      rw [htok]
      show (if decide (s.root ∈ s.toks) = true then _ else _) = _
      rw [if_neg (by simpa using hr)]
      rfl
    obtain ⟨g2, e2, b⟩ := attach_built (p := p) h.inv h.layered h.ns h.root g.getUnconnectedNodes
    refine ⟨g2, ?_, ?_⟩
    · show (g.tigerVroot >>= _) = _
      rw [hv1]
      exact e2
    refine ⟨b.inv, b.layered, b.ns.trans h.ns, b.root.trans (h.root.trans htop.symm), ?_, ?_, ?_, ?_, ?_, ?_⟩
    · rw [b.tokens, h.tokens]
      simp [edgeCalls, Instr.newTokens]
    · intro m
      rw [b.nodes, htop]
      constructor
      · rintro (hm | hm)
        · exact .inl ((h.nodes m).1 hm)
        · obtain ⟨e, he, hm⟩ := hments hm
          obtain ⟨n, hn, rfl⟩ := List.mem_map.1 he
          rcases hm with hm | hm
          · exact .inr hm
          · exact .inl (hm ▸ hsub n hn)
      · rintro (hm | rfl)
        · exact .inl ((h.nodes m).2 hm)
        · exact .inl hroot
    · intro m k hk
      rw [b.attr m k hk, no_write_edges, h.attr m k hk]
      rfl
    · intro m hm l
      rw [b.layer]
      have h2 : g.HasNode m := (h.nodes m).2 hm
      simp only [h2, no_layer_edges, not_true_eq_false, false_and, or_false]
      exact h.layer m hm l
    · intro h'; exact (hr h').elim
    · have he2 := h.edges.built b (mem_edgeCalls (es := g.getUnconnectedNodes.map (attachEdge p s.root))) (count_edgeCalls _)
      have := he2.perm (hedges _)
      unfold sentEdges
      rw [htop]
      exact this

theorem tigerSentence_graph {p : String} {s : TigerS} (hv : s.Valid) (hx : NodeId.str (qual p "VROOT") ∉ s.declared) : ∃ g, tigerSentence p s = .ok g ∧ SentGraph p s g := by
  unfold tigerSentence
  have h1 : ∃ g1, (init "" p none).removeNode (init "" p none).root = .ok g1 ∧ g1.nodes = [] ∧ g1.adj = [] ∧ g1.ns = p ∧ g1.sentences = [] := by
    unfold removeNode init
    refine ⟨_, if_pos ?_, ?_, ?_, rfl, rfl⟩
    · simp [bare, newNode, put, has, defaultRoot]
    · simp [bare, newNode, put, del, defaultRoot]
    · simp [bare, newNode, put, del, defaultRoot]
  obtain ⟨g1, e1, n1, a1, s1, t1⟩ := h1
  have e2 : elemAttr s.graph "root" = .ok (xval s.graph "root") := xmlAttr_ok hv.graph
  have hb : Blank p s.root { g1 with tokens := [], root := .str (xval s.graph "root"), name := (find s.attrs "id").getD "" } := ⟨n1, a1, s1, rfl, rfl, t1⟩
  obtain ⟨g3, e3, f3⟩ := tigerSentence2graph_file hv hb
  obtain ⟨g4, e4, f4⟩ := tigerRepair_graph f3 hv hx
  refine ⟨g4, ?_, f4⟩
  simp only [e1, e2, bind, Except.bind]
  rw [e3]
  exact e4

end DG
end Dg
