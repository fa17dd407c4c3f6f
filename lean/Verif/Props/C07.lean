import Verif.Lemmas.AddsEdges

/-! C07: add_layer touches only the addressed element.  (Value level; for shared set objects see `C07Heap`.) -/

namespace Dg
open Dict
namespace DG

/-- the attribute dict `a'` is `a` with layer `l` added to its layers -/
def LayerAdded (l : String) (a a' : Attrs) : Prop :=
  (∀ x, AttrsLayer a' x ↔ AttrsLayer a x ∨ x = .str l) ∧ ∀ k, k ≠ "layers" → find a' k = find a k

theorem layerAdded_withLayer {a : Attrs} {l : String} {xs : List Atom} (h : find a "layers" = some (.set xs)) :
    LayerAdded l a (withLayer l a) := by
  obtain ⟨h1, h2⟩ := withLayer_spec (l := l) h
  refine ⟨?_, h2⟩
  intro x
  unfold AttrsLayer
  rw [h1, h]
  simp

theorem sameMeta_addLayer (g : DG) (e : Elem) (l : Val) : SameMeta g (g.addLayer e l).1 := by
  unfold addLayer
  split
  · split
    · split
      · exact SameMeta.refl g
      · split
        · exact SameMeta.refl g
        · exact ⟨rfl, rfl, rfl, rfl, rfl, rfl, rfl⟩
    · split
      · exact SameMeta.refl g
      · exact sameMeta_putKeyDict _ _ _ _
  · exact SameMeta.refl g

/-- **C07 (nodes)**.  `add_layer(n, l)` on a node that has a layers set adds exactly `l` to the layers of exactly that node:
its other attributes, all other nodes and all edges are unchanged.  (Layer sets not shared between elements, see
`C07Heap`.) -/
theorem c07_add_layer_node (g : DG) (n : NodeId) (l : String) (a : Attrs) (xs : List Atom)
    (hn : g.nodeAttrs n = some a) (hl : find a "layers" = some (.set xs)) :
    ∃ g' a', g.step (.addLayer (.node n) (.atom (.str l))) = (g', none) ∧ g'.nodeAttrs n = some a' ∧ LayerAdded l a a' ∧
      (∀ m, m ≠ n → g'.nodeAttrs m = g.nodeAttrs m) ∧ (∀ u v k, g'.edgeAttrs u v k = g.edgeAttrs u v k) ∧
      keys g'.nodes = keys g.nodes ∧ SameMeta g g' := by
  have hm := sameMeta_addLayer g (.node n) (.atom (.str l))
  have hs : g.addLayer (.node n) (.atom (.str l)) = ({ g with nodes := put g.nodes n (withLayer l a) }, none) := by
    unfold nodeAttrs at hn
    simp [addLayer, hn, layerSet, hl, withLayer]
  rw [hs] at hm
  refine ⟨{ g with nodes := put g.nodes n (withLayer l a) }, withLayer l a, by simp [step, hs], ?_, layerAdded_withLayer hl, ?_, fun _ _ _ => rfl, ?_, hm⟩
  · rw [nodeAttrs_putNodes]; simp
  · intro m hne; rw [nodeAttrs_putNodes]; simp [hne]
  · exact keys_put_of_mem _ _ _ ((mem_keys_iff _ _).2 ⟨a, hn⟩)

/-- **C07 (edges)**.  In any reachable graph, `add_layer((u, v), l)` on existing edges adds exactly `l` to the layers of every
parallel edge from `u` to `v`; every other edge, the other attributes and all nodes are unchanged. -/
theorem c07_add_layer_edge (g : DG) (hr : Reachable g) (u v : NodeId) (l : String) (k0 : Key) (he : g.HasEdge u v k0) :
    ∃ g', g.step (.addLayer (.edge u v) (.atom (.str l))) = (g', none) ∧
      (∀ k a, g.edgeAttrs u v k = some a → ∃ a', g'.edgeAttrs u v k = some a' ∧ LayerAdded l a a') ∧
      (∀ u' v' k, (u', v') ≠ (u, v) ∨ ¬ g.HasEdge u v k → g'.edgeAttrs u' v' k = g.edgeAttrs u' v' k) ∧
      (∀ m, g'.nodeAttrs m = g.nodeAttrs m) ∧ SameMeta g g' := by
  have hm := sameMeta_addLayer g (.edge u v) (.atom (.str l))
  rcases addLayer_edge hr.inv u v l with ⟨h0, _⟩ | ⟨kd, g', hkd, h, hi', hn, hview⟩
  · unfold HasEdge edgeAttrs at he; rw [h0] at he; simp at he
  · rw [h] at hm
    refine ⟨g', by simp [step, h], ?_, ?_, ?_, hm⟩
    · intro k a hka
      obtain ⟨xs, hx, _⟩ := hr.inv.edges _ _ _ _ hka
      refine ⟨withLayer l a, ?_, layerAdded_withLayer hx⟩
      unfold edgeAttrs at hka ⊢
      rw [hkd] at hka
      rw [hview]
      simp only [and_self, if_true, Option.bind_some]
      rw [find_mapVal kd (withLayer l) k]
      simp only [Option.bind_some] at hka
      rw [hka]; rfl
    · intro u' v' k hne
      unfold edgeAttrs
      rw [hview]
      split
      · rename_i hh
        obtain ⟨rfl, rfl⟩ := hh
        rcases hne with hne | hne
        · exact absurd rfl hne
        · unfold HasEdge edgeAttrs at hne
          rw [hkd] at hne ⊢
          simp only [Option.bind_some]
          rw [find_mapVal kd (withLayer l) k]
          simp only [Option.bind_some] at hne
          cases hf : find kd k with
          | none => rfl
          | some x => rw [hf] at hne; simp at hne
      · rfl
    · intro m; unfold nodeAttrs; rw [hn]

/-- `add_layer` on an unknown node or edge, or with a non-string layer, raises and changes nothing. -/
theorem c07_add_layer_refused (g : DG) (e : Elem) (layer : Val)
    (h : (∀ s, layer ≠ .atom (.str s)) ∨
      (match e with | .node n => ¬ g.HasNode n | .edge u v => g.kd? u v = none)) :
    ∃ err, g.step (.addLayer e layer) = (g, some err) := by
  simp only [step]
  unfold addLayer
  split
  · rename_i l
    rcases h with h | h
    · exact absurd rfl (h l)
    · cases e with
      | node n =>
        simp only [HasNode] at h
        exact ⟨.key, by simp only [(find_eq_none_iff _ _).2 h]⟩
      | edge u v =>
        refine ⟨.key, ?_⟩
        simp only [kd?] at h
        simp only [h]
  · exact ⟨_, rfl⟩

example :
    let g := (init "" "dg" none).run
      [.addEdge (.int 1) (.int 2) (.atom .none) none .none [], .addEdge (.int 1) (.int 2) (.set [.str "y"]) none .none [],
       .addEdge (.int 2) (.int 1) (.atom .none) none .none []]
    Reachable g ∧ g.HasEdge (.int 1) (.int 2) (.int 1) ∧
    (g.step (.addLayer (.edge (.int 1) (.int 2)) (.atom (.str "x")))).1.edgeAttrs (.int 1) (.int 2) (.int 1) =
      some [("layers", .set [.str "y", .str "x"])] ∧
    (g.step (.addLayer (.edge (.int 1) (.int 2)) (.atom (.str "x")))).1.edgeAttrs (.int 2) (.int 1) (.int 0) =
      some [("layers", .set [.str "dg"])] ∧
    g.nodeAttrs (.int 1) = some [("layers", .set [.str "dg"])] := by
  refine ⟨⟨"", "dg", none, _, ?_, rfl⟩, by decide, by decide, by decide, by decide⟩
  simp [Op.Valid, AttrArg.Valid, keys]

end DG
end Dg
