import Verif.Lemmas.MergeSpec
import Verif.Lemmas.Script
import Verif.Lemmas.CondCalls

/-! Copying all nodes and edges of a graph into another one with `add_nodes_from` and `add_edges_from`. -/

namespace Dg
open Dict
namespace DG

/-- the layers of a node or edge -/
def layerStrs (a : Attrs) : List String :=
  match find a "layers" with
  | some (.set xs) => xs.filterMap (fun x => match x with | .str s => some s | _ => none)
  | _ => []

theorem map_layerStrs {a : Attrs} {xs : List Atom} (h : find a "layers" = some (.set xs)) (hs : ∀ x ∈ xs, ∃ s, x = Atom.str s) : (layerStrs a).map Atom.str = xs := by
  unfold layerStrs
  rw [h]
  simp only
  clear h
  induction xs with
  | nil => rfl
  | cons x xs ih =>
    obtain ⟨s, rfl⟩ := hs x (by simp)
    rw [List.filterMap_cons]
    simp only [List.map_cons]
    rw [ih (fun y hy => hs y (List.mem_cons_of_mem _ hy))]

theorem mem_layerStrs {a : Attrs} (h : LayeredB False a) (l : Atom) : l ∈ (layerStrs a).map Atom.str ↔ AttrsLayer a l := by
  obtain ⟨xs, hx, hs, _⟩ := h
  rw [map_layerStrs hx hs]
  unfold AttrsLayer
  rw [hx]
  constructor
  · intro hl; exact ⟨xs, rfl, hl⟩
  · rintro ⟨ys, hy, hl⟩
    obtain rfl := Val.set.inj (Option.some.inj hy)
    exact hl

theorem find_del_ne {d : Attrs} {k : String} (h : k ≠ "layers") : find (del d "layers") k = find d k := by
  rw [find_del, if_neg (Ne.symm h)]

theorem built_tup {g : DG} (hi : Inv g) (hl : NodesLayered False g) (n : NodeId) {d : Attrs} (ndd : (keys d).Nodup) (hd : LayeredB False d) :
    ∃ g', g.addNodeItem [] (.tup n d) = .ok g' ∧ Built g [.node n (layerStrs d) (del d "layers")] g' := by
  have hmem := mem_layerStrs hd
  obtain ⟨xs, hxs, hstr, hne⟩ := hd
  have hdef : g.defaultLayers d = d := by
    unfold defaultLayers
    rw [if_pos ((has_iff _ _).2 ((mem_keys_iff _ _).2 ⟨_, hxs⟩))]
  have hle : layersEntry d = .ok (.set xs) := by unfold layersEntry; rw [hxs]
  have hex : ∃ g', g.addNodeItem [] (.tup n d) = .ok g' := by
    unfold addNodeItem
    simp only [hdef, hle, strSet_isOk hstr, bind, Except.bind]
    cases ho : find g.nodes n with
    | none => exact ⟨_, rfl⟩
    | some old =>
      obtain ⟨ys, hys, _⟩ := hl n old ho
      simp only [layerSet, hys]
      exact ⟨_, rfl⟩
  obtain ⟨g', hg'⟩ := hex
  have hkd := kd?_addNodeItem hi.wf hg'
  have hedge : ∀ u v k, g'.edgeAttrs u v k = g.edgeAttrs u v k := edgeAttrs_of_kd? hkd
  have hinv := inv_addNodeItem hi (by simp [keys]) hg'
  have hlay := nodesLayered_addNodeItem hl (show NodeItem.Valid (.tup n d) from ndd) (by simp) (fun h => h.elim) hg'
  obtain ⟨ls, hls, _, hcase⟩ := addNodeItem_tup_ok hg'
  rw [hdef, hxs] at hls
  obtain rfl := Val.set.inj (Option.some.inj hls)
  rw [hdef, upd_nil_of_nodup ndd] at hcase
  have hmeta : SameMeta g g' := by
    rcases hcase with ⟨_, rfl⟩ | ⟨old, ex, _, _, rfl⟩
    · exact sameMeta_newNode _ _ _
    · exact ⟨rfl, rfl, rfl, rfl, rfl, rfl, rfl⟩
  obtain ⟨m1, m2, m3, m4, m5, m6, m7⟩ := hmeta
  refine ⟨g', hg', hinv, hlay, m1, m2, m3, m6, m7, by rw [m4]; simp [Instr.newTokens], by rw [m5]; simp [Instr.newSentences], ?_, ?_, ?_, ?_, ?_, ?_, ?_⟩
  · intro m
    rw [hasNode_some, hasNode_some]
    rcases hcase with ⟨hnone, rfl⟩ | ⟨old, ex, hold, hex, rfl⟩
    · rw [nodeAttrs_newNode]
      by_cases e : m = n <;> simp [e, Instr.Mentions]
    · rw [nodeAttrs_putNodes]
      by_cases e : m = n <;> simp [e, Instr.Mentions]
  · intro m k hk
    simp only [lastWrite, Instr.write, Option.none_or, find_del_ne hk]
    unfold nodeAttr
    rcases hcase with ⟨hnone, rfl⟩ | ⟨old, ex, hold, hex, rfl⟩
    · rw [nodeAttrs_newNode]
      by_cases e : m = n
      · subst e
        have : g.nodeAttrs m = none := hnone
        simp [this]
      · simp [e]
    · rw [nodeAttrs_putNodes]
      by_cases e : m = n
      · subst e
        have : g.nodeAttrs m = some old := hold
        rw [this, if_pos rfl, if_pos rfl]
        simp only [Option.bind_some]
        rw [find_put_ne _ _ (Ne.symm hk), upd_nil, find_upd _ ndd]
      · simp [e]
  · intro m l
    have himp : ¬ Implicit m [Instr.node n (layerStrs d) (del d "layers")] := by simp [Implicit, Instr.IsEdge]
    simp only [List.mem_singleton, exists_eq_left, himp, false_and, and_false, or_false, Instr.GivesLayer]
    rw [hmem]
    unfold NodeLayer
    rcases hcase with ⟨hnone, rfl⟩ | ⟨old, ex, hold, hex, rfl⟩
    · rw [nodeAttrs_newNode]
      by_cases e : m = n
      · subst e
        have : g.nodeAttrs m = none := hnone
        simp [this]
      · simp [e]
    · rw [nodeAttrs_putNodes]
      by_cases e : m = n
      · subst e
        have : g.nodeAttrs m = some old := hold
        rw [this, if_pos rfl]
        simp [AttrsLayer, hex, hxs, mem_setUnion]
      · simp [e]
  · rintro u v a ⟨k, h⟩
    exact .inl ⟨k, by rw [← hedge]; exact h⟩
  · rintro u v a ⟨k, h⟩
    exact ⟨k, by rw [hedge]; exact h⟩
  · simp
  · intro u v
    unfold edgeCount
    rw [hkd]
    rfl

theorem built_e3 {g : DG} (hi : Inv g) (hl : NodesLayered False g) (u v : NodeId) {dd : Attrs} (ndd : (keys dd).Nodup) (hd : LayeredNE dd) :
    ∃ g', g.addEdgeItem [] u v none dd = (g', none) ∧ Built g [.edge u v (layerStrs dd) (del dd "layers")] g' := by
  obtain ⟨g', e, hg'⟩ : ∃ g' e, g.addEdgeItem [] u v none dd = (g', e) := ⟨_, _, rfl⟩
  have hm := sameMeta_addEdgeItem g [] u v none dd
  rw [hg'] at hm
  obtain ⟨m1, m2, m3, m4, m5, m6, m7⟩ := hm
  obtain ⟨xs, hxs, hstr, hne⟩ := hd
  have hmem := mem_layerStrs (a := dd) ⟨xs, hxs, hstr, fun h => h.elim⟩
  rcases addEdgeItem_view hi (by simp [keys]) ndd hg' with ⟨_, _, hno⟩ | ⟨rfl, k, a, layers, hk, hlay, hi', hkd, hfind, ⟨L, hL, _, _, hin, hout⟩, hnodes⟩
  · exfalso; apply hno
    refine ⟨⟨xs, ?_, hstr⟩, [], rfl⟩
    unfold layersEntry
    rw [find_defaultLayers, hxs]; rfl
  rw [hxs] at hlay
  obtain rfl := Val.set.inj hlay
  have hedge := edgeAttrs_of_put hkd
  have hfresh : g.edgeAttrs u v k = none := by
    have := not_hasEdge_freshKey (g := g) u v
    rw [Option.getD_none] at hk
    rw [← hk] at this
    unfold HasEdge at this
    cases he : g.edgeAttrs u v k with
    | none => rfl
    | some b => rw [he] at this; simp at this
  have hmatch : MatchesArgs a (layerStrs dd) (del dd "layers") := by
    constructor
    · intro x hx
      rw [hfind x hx, find_del_ne hx]
      unfold edgeAttr
      rw [hfresh]
      simp [find]
    · intro l
      rw [hmem]
      have hno : ∀ x, ¬ g.EdgeLayer u v k x := by
        rintro x ⟨b, hb, _⟩
        rw [hfresh] at hb
        cases hb
      have hno2 : ∀ x, ¬ AttrsLayer ([] : Attrs) x := by
        rintro x ⟨ys, hy, _⟩
        cases hy
      unfold AttrsLayer
      rw [hL, hxs]
      constructor
      · rintro ⟨ys, e, hly⟩
        obtain rfl := Val.set.inj (Option.some.inj e)
        rcases hout l hly with h | h | h | ⟨h, _⟩
        · exact (hno l h).elim
        · exact ⟨_, rfl, h⟩
        · exact (hno2 l h).elim
        · exact (hne h).elim
      · rintro ⟨ys, e, hly⟩
        obtain rfl := Val.set.inj (Option.some.inj e)
        exact ⟨L, rfl, hin l (.inr (.inl hly))⟩
  refine ⟨g', hg', ?_⟩
  generalize layerStrs dd = ls at hmatch ⊢
  generalize del dd "layers" = at' at hmatch ⊢
  refine ⟨hi', nodesLayered_of_ensure hl hnodes, m1, m2, m3, m6, m7, by rw [m4]; simp [Instr.newTokens], by rw [m5]; simp [Instr.newSentences], ?_, ?_, ?_, ?_, ?_, ?_, ?_⟩
  · intro m
    rw [hasNode_some, hasNode_some, hnodes]
    by_cases e : m = u ∨ m = v
    · simp [e, Instr.Mentions]
    · simp [e, Instr.Mentions]
  · intro m x hx
    simp only [lastWrite, Instr.write, Option.none_or]
    unfold nodeAttr
    rw [hnodes]
    by_cases e : m = u ∨ m = v
    · rw [if_pos e]
      cases hm : g.nodeAttrs m with
      | none => simp [find, Ne.symm hx]
      | some b => simp
    · rw [if_neg e]
  · intro m l
    simp only [List.mem_singleton, exists_eq_left, Instr.GivesLayer, Implicit, Instr.Mentions, Instr.IsEdge, and_true, and_false, or_false, false_or]
    unfold NodeLayer
    rw [hnodes, hasNode_some]
    by_cases e : m = u ∨ m = v
    · rw [if_pos e]
      cases hm : g.nodeAttrs m with
      | none => simp [AttrsLayer, e, find]
      | some b => simp
    · simp [e]
  · rintro x y b ⟨k', h⟩
    rw [hedge] at h
    split at h
    · rename_i hxy
      obtain ⟨rfl, rfl, rfl⟩ := hxy
      obtain rfl := Option.some.inj h
      exact .inr ⟨ls, at', by simp, hmatch⟩
    · exact .inl ⟨k', h⟩
  · rintro x y b ⟨k', h⟩
    refine ⟨k', ?_⟩
    rw [hedge]
    split
    · rename_i hxy
      obtain ⟨rfl, rfl, rfl⟩ := hxy
      rw [hfresh] at h
      simp at h
    · exact h
  · intro x y ls' at'' h
    rw [List.mem_singleton] at h
    injection h with e1 e2 e3 e4
    subst e1 e2 e3 e4
    exact ⟨a, ⟨k, by rw [hedge]; simp⟩, hmatch⟩
  · intro x y
    unfold edgeCount
    rw [hkd, List.countP_singleton]
    simp only [Instr.isEdge, decide_eq_true_eq]
    by_cases e : x = u ∧ y = v
    · obtain ⟨rfl, rfl⟩ := e
      rw [if_pos ⟨rfl, rfl⟩, if_pos ⟨rfl, rfl⟩, Option.getD_some, put_of_not_mem]
      · simp
      · intro hmem
        obtain ⟨b, hb⟩ := (mem_keys_iff _ _).1 hmem
        unfold edgeAttrs at hfresh
        cases hk2 : g.kd? x y with
        | none => rw [hk2] at hb; simp at hb
        | some d =>
          rw [hk2] at hb hfresh
          simp only [Option.getD_some, Option.bind_some] at hb hfresh
          rw [hfresh] at hb
          cases hb
    · rw [if_neg e, if_neg e]
      rfl

theorem built_append {s s' : List Instr} : ∀ {g g1 g2 : DG}, Inv g → NodesLayered False g → Built g s g1 → Built g1 s' g2 → Built g (s ++ s') g2 := by
  intro g g1 g2 hi hl h1 h2
  have hn1 : ∀ m, g1.HasNode m ↔ g.HasNode m ∨ ∃ i ∈ s, i.Mentions m := h1.nodes
  refine ⟨h2.inv, h2.layered, h2.name.trans h1.name, h2.ns.trans h1.ns, h2.root.trans h1.root, h2.mergedRoots.trans h1.mergedRoots, h2.renamed.trans h1.renamed, ?_, ?_, ?_, ?_, ?_, ?_, ?_, ?_, ?_⟩
  · rw [h2.tokens, h1.tokens, List.flatMap_append, List.append_assoc]
  · rw [h2.sentences, h1.sentences, List.flatMap_append, List.append_assoc]
  · intro m
    rw [h2.nodes, hn1]
    simp only [List.mem_append, or_and_right, exists_or, or_assoc]
  · intro m k hk
    rw [h2.attr m k hk, h1.attr m k hk, lastWrite_append, Option.or_assoc]
  · intro m l
    rw [h2.layer, h1.layer, hn1, h1.ns, implicit_append]
    simp only [List.mem_append, or_and_right, exists_or, not_or]
    have : (∀ i ∈ s, ¬ i.Mentions m) ↔ ¬ ∃ i ∈ s, i.Mentions m := by simp
    rw [this]
    generalize (∃ i ∈ s, i.Mentions m) = M
    generalize (∃ i ∈ s, i.GivesLayer m l) = G1
    generalize (∃ i ∈ s', i.GivesLayer m l) = G2
    tauto
  · intro u v a h
    rcases h2.edgeOf u v a h with h | ⟨ls, at', hm, h⟩
    · rcases h1.edgeOf u v a h with h | ⟨ls, at', hm, h⟩
      · exact .inl h
      · exact .inr ⟨ls, at', List.mem_append_left _ hm, h⟩
    · exact .inr ⟨ls, at', List.mem_append_right _ hm, h⟩
  · exact fun u v a h => h2.edgeOld u v a (h1.edgeOld u v a h)
  · intro u v ls at' h
    rcases List.mem_append.1 h with h | h
    · obtain ⟨a, ha, hm⟩ := h1.edgeNew u v ls at' h
      exact ⟨a, h2.edgeOld u v a ha, hm⟩
    · exact h2.edgeNew u v ls at' h
  · intro u v
    rw [h2.count, h1.count, List.countP_append, Nat.add_assoc]

/-- calls that copy the nodes -/
def copyNodes (o : DG) : List Instr := o.nodes.map (fun p => .node p.1 (layerStrs p.2) (del p.2 "layers"))

/-- calls that copy the edges -/
def copyEdges (o : DG) : List Instr := o.edges.map (fun e => .edge e.1 e.2.1 (layerStrs e.2.2.2) (del e.2.2.2 "layers"))

theorem addNodesFrom_built (ps : List (NodeId × Attrs)) : ∀ {g : DG}, Inv g → NodesLayered False g → (∀ p ∈ ps, (keys p.2).Nodup ∧ LayeredB False p.2) →
    ∃ g', g.addNodesFrom [] (ps.map (fun p => NodeItem.tup p.1 p.2)) = (g', none) ∧ Built g (ps.map (fun p => .node p.1 (layerStrs p.2) (del p.2 "layers"))) g' := by
  induction ps with
  | nil => intro g hi hl _; exact ⟨g, rfl, built_nil hi hl⟩
  | cons p ps ih =>
    intro g hi hl hp
    obtain ⟨g1, e1, b1⟩ := built_tup hi hl p.1 (hp p (by simp)).1 (hp p (by simp)).2
    obtain ⟨g2, e2, b2⟩ := ih b1.inv b1.layered (fun q hq => hp q (List.mem_cons_of_mem _ hq))
    refine ⟨g2, ?_, built_cons b1 b2⟩
    rw [List.map_cons, addNodesFrom, e1]
    exact e2

theorem addEdgesLoop_built (es : List Edge) : ∀ {g : DG}, Inv g → NodesLayered False g → (∀ e ∈ es, (keys e.2.2.2).Nodup ∧ LayeredNE e.2.2.2) →
    ∃ g', addEdgesLoop [] g (es.map (fun e => EdgeItem.e3 e.1 e.2.1 e.2.2.2)) = (g', none) ∧ Built g (es.map (fun e => .edge e.1 e.2.1 (layerStrs e.2.2.2) (del e.2.2.2 "layers"))) g' := by
  induction es with
  | nil => intro g hi hl _; exact ⟨g, rfl, built_nil hi hl⟩
  | cons e es ih =>
    intro g hi hl he
    obtain ⟨g1, e1, b1⟩ := built_e3 hi hl e.1 e.2.1 (he e (by simp)).1 (he e (by simp)).2
    obtain ⟨g2, e2, b2⟩ := ih b1.inv b1.layered (fun q hq => he q (List.mem_cons_of_mem _ hq))
    refine ⟨g2, ?_, built_cons b1 b2⟩
    rw [List.map_cons, addEdgesLoop_cons]
    simp only [addEdgeTuple, e1]
    exact e2

/-- `add_nodes_from(o.nodes(data=True))` and `add_edges_from(o.edges(data=True))` succeed -/
theorem copy_built {g o : DG} (hi : Inv g) (hl : NodesLayered False g) (oi : Inv o) (ol : NodesLayered False o) :
    ∃ g1 g2, batch (g.addNodesFrom [] (o.nodes.map (fun p => NodeItem.tup p.1 p.2))) = .ok g1 ∧
      batch (g1.addEdgesFrom (o.edges.map (fun e => EdgeItem.e3 e.1 e.2.1 e.2.2.2)) .none []) = .ok g2 ∧ Built g (copyNodes o ++ copyEdges o) g2 := by
  have hn : ∀ p ∈ o.nodes, (keys p.2).Nodup ∧ LayeredB False p.2 := by
    rintro ⟨n, a⟩ hp
    have : o.nodeAttrs n = some a := mem_find oi.wf.nodesNodup hp
    exact ⟨oi.attrs.node n a this, ol n a this⟩
  have he : ∀ e ∈ o.edges, (keys e.2.2.2).Nodup ∧ LayeredNE e.2.2.2 := by
    rintro ⟨u, v, k, a⟩ h
    have := (mem_edges_iff oi.wf u v k a).1 h
    exact ⟨oi.attrs.edge u v k a this, oi.edges u v k a this⟩
  obtain ⟨g1, e1, b1⟩ := addNodesFrom_built o.nodes hi hl hn
  obtain ⟨g2, e2, b2⟩ := addEdgesLoop_built o.edges b1.inv b1.layered he
  refine ⟨g1, g2, by rw [e1]; rfl, ?_, built_append hi hl b1 b2⟩
  show batch (addEdgesLoop [] g1 _) = _
  rw [e2]
  rfl

/-- the root is not part of what calls change -/
theorem Built.withRoot {g g' : DG} {s : List Instr} (h : Built g s g') (r : NodeId) : Built { g with root := r } s { g' with root := r } :=
  ⟨⟨⟨h.inv.wf.nodesNodup, h.inv.wf.adjKeys, h.inv.wf.nbrsNodup, h.inv.wf.kdNodup, h.inv.wf.kdNonempty, h.inv.wf.target⟩, ⟨h.inv.attrs.node, h.inv.attrs.edge⟩, h.inv.edges⟩,
    h.layered, h.name, h.ns, rfl, h.mergedRoots, h.renamed, h.tokens, h.sentences, h.nodes, h.attr, h.layer, h.edgeOf, h.edgeOld, h.edgeNew, h.count⟩

end DG
end Dg
