import Verif.Lemmas.AddsEdges

/-! C04: add_edge without a key always creates a new parallel edge; with a key it updates exactly that edge. -/

namespace Dg
open Dict
namespace DG

/-- In a reachable graph `add_edge` succeeds whenever its `layers` argument is acceptable and `attr_dict` is a dict. -/
theorem c04_add_edge_succeeds (g : DG) (hr : Reachable g) (u v : NodeId) (layers : Val) (ls : List Atom) (key : Option Key)
    (ad : AttrArg) (attr : Attrs) (hl : LayersArg g.ns layers ls) (had : ad ≠ .bad) :
    ∃ g', g.step (.addEdge u v layers key ad attr) = (g', none) := by
  have hi := hr.inv
  obtain ⟨g', hg'⟩ := addEdge_isOk (u := u) (v := v) (key := key) (attr := attr) hi.wf ((checkLayers_iff g _ _).2 hl) had
    (fun u v k a h => by obtain ⟨xs, hx, _⟩ := hi.edges u v k a h; exact ⟨xs, hx⟩)
  exact ⟨g', by simp [step, hg', lift]⟩

/-- **C04 (no key)**.  A successful `add_edge(u, v, layers, attr_dict, **attr)` adds exactly one edge `u → v` under a key
that was not in use; it carries the keyword attributes, else the attr_dict attributes, and exactly
the given layers; nothing else changes except that missing endpoints are created in the graph's layer. -/
theorem c04_add_edge_without_key (g g' : DG) (hr : Reachable g) (u v : NodeId) (layers : Val) (ad : AttrArg) (attr : Attrs)
    (nda : (keys attr).Nodup) (vad : AttrArg.Valid ad)
    (h : g.step (.addEdge u v layers none ad attr) = (g', none)) :
    ∃ k a ls, AddsEdges g g' [(u, v, k, a)] ∧ LayersArg g.ns layers ls ∧
      (∀ x, x ≠ "layers" → find a x = (find attr x).or (argFind ad x)) ∧
      (∀ l, AttrsLayer a l ↔ l ∈ ls) := by
  have hi := hr.inv
  simp only [step] at h
  cases ha : g.addEdge u v layers none ad attr with
  | error e => rw [ha] at h; simp [lift] at h
  | ok g1 =>
    rw [ha] at h; simp only [lift, Prod.mk.injEq] at h
    obtain ⟨rfl, _⟩ := h
    obtain ⟨ls, k, a, hls, hk, _, _, hkd, hattr, ⟨L, hL, _, hmem⟩, hn⟩ := addEdge_view hi nda vad ha
    have hfresh : ¬ g.HasEdge u v k := by rw [hk]; exact not_hasEdge_freshKey u v
    have hnone : g.edgeAttrs u v k = none := by
      unfold HasEdge at hfresh; cases he : g.edgeAttrs u v k <;> simp_all
    refine ⟨k, a, ls, addsEdges_single (setsEdge_of_view hkd hn (sameMeta_addEdge hi nda vad ha)) hfresh,
      (checkLayers_iff g _ _).1 hls, ?_, ?_⟩
    · intro x hx
      rw [hattr x hx]
      simp [edgeAttr, hnone]
    · intro l
      unfold AttrsLayer
      rw [hL]
      have : ¬ g.EdgeLayer u v k l := by unfold EdgeLayer; simp [hnone]
      simp [hmem l, this]

/-- **C04 (with key)**.  A successful `add_edge(u, v, key=k, ...)` sets exactly the edge `(u, v, k)`: given attributes
win over stored ones, layers are united; nothing else changes (missing endpoints are created). -/
theorem c04_add_edge_with_key (g g' : DG) (hr : Reachable g) (u v : NodeId) (k : Key) (layers : Val) (ad : AttrArg) (attr : Attrs)
    (nda : (keys attr).Nodup) (vad : AttrArg.Valid ad)
    (h : g.step (.addEdge u v layers (some k) ad attr) = (g', none)) :
    ∃ a ls, SetsEdge g g' u v k a ∧ LayersArg g.ns layers ls ∧
      (∀ x, x ≠ "layers" → find a x = ((find attr x).or (argFind ad x)).or (g.edgeAttr u v k x)) ∧
      (∀ l, AttrsLayer a l ↔ g.EdgeLayer u v k l ∨ l ∈ ls) := by
  have hi := hr.inv
  simp only [step] at h
  cases ha : g.addEdge u v layers (some k) ad attr with
  | error e => rw [ha] at h; simp [lift] at h
  | ok g1 =>
    rw [ha] at h; simp only [lift, Prod.mk.injEq] at h
    obtain ⟨rfl, _⟩ := h
    obtain ⟨ls, k', a, hls, hk, _, _, hkd, hattr, ⟨L, hL, _, hmem⟩, hn⟩ := addEdge_view hi nda vad ha
    simp only [Option.getD_some] at hk
    subst hk
    refine ⟨a, ls, setsEdge_of_view hkd hn (sameMeta_addEdge hi nda vad ha), (checkLayers_iff g _ _).1 hls, hattr, ?_⟩
    intro l
    unfold AttrsLayer
    rw [hL]
    simp [hmem l]

/-- A failing call changes nothing. -/
theorem c04_add_edge_failure (g g' : DG) (u v : NodeId) (layers : Val) (key : Option Key) (ad : AttrArg) (attr : Attrs)
    (e : PyErr) (h : g.step (.addEdge u v layers key ad attr) = (g', some e)) : g' = g := by
  simp only [step] at h
  cases ha : g.addEdge u v layers key ad attr with
  | error e => rw [ha] at h; simp only [lift, Prod.mk.injEq] at h; exact h.1.symm
  | ok g1 => rw [ha] at h; simp [lift] at h

/-- non-vacuity: keys 0 and 2 are in use (so the smallest candidate `len = 2` is taken): the new edge gets key 3,
endpoints exist, the attribute dict is a mix of both argument styles -/
example :
    let g := (init "" "dg" none).run
      [.addEdge (.int 1) (.int 2) (.atom .none) none .none [], .addEdge (.int 1) (.int 2) (.atom .none) (some (.int 2)) .none []]
    Reachable g ∧
    (g.step (.addEdge (.int 1) (.int 2) (.set [.str "x"]) none (.dict [("w", .atom (.int 1))]) [("w", .atom (.int 2))])).2 = none ∧
    (g.step (.addEdge (.int 1) (.int 2) (.set [.str "x"]) none (.dict [("w", .atom (.int 1))]) [("w", .atom (.int 2))])).1.edgeAttrs
      (.int 1) (.int 2) (.int 3) = some [("w", .atom (.int 2)), ("layers", .set [.str "x"])] := by
  refine ⟨⟨"", "dg", none, _, ?_, rfl⟩, by decide, by decide⟩
  simp [Op.Valid, AttrArg.Valid, keys]

end DG
end Dg
