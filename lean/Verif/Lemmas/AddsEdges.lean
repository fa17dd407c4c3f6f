import Verif.Lemmas.Keeps
import Verif.Spec.Edges

namespace Dg
open Dict
namespace DG

theorem sameMeta_addEdge {g g' : DG} (hi : Inv g) {u v : NodeId} {layers : Val} {key : Option Key} {ad : AttrArg}
    {attr : Attrs} (nda : (keys attr).Nodup) (vad : AttrArg.Valid ad)
    (h : g.addEdge u v layers key ad attr = .ok g') : SameMeta g g' := by
  obtain ⟨_, _, _, _, _, _, rfl⟩ := addEdge_ok hi.wf nda vad h
  exact ((sameMeta_ensureNode g u).trans (sameMeta_ensureNode _ v)).trans (sameMeta_putKeyDict _ _ _ _)

/-- weaker version without the invariant, for the inner call of `add_edges_from` -/
theorem sameMeta_addEdge' {g g' : DG} {u v : NodeId} {layers : Val} {key : Option Key} {ad : AttrArg}
    {attr : Attrs} (h : g.addEdge u v layers key ad attr = .ok g') : SameMeta g g' := by
  have h0 := (sameMeta_ensureNode g u).trans (sameMeta_ensureNode _ v)
  unfold addEdge at h
  simp only [bind, Except.bind] at h
  split at h
  · simp at h
  split at h
  · simp at h
  split at h
  · split at h
    · simp at h
    · injection h with h; rw [← h]
      exact h0.trans (sameMeta_putKeyDict _ _ _ _)
  · injection h with h; rw [← h]
    exact h0.trans (sameMeta_putKeyDict _ _ _ _)

theorem sameMeta_addEdgeItem (g : DG) (ad : Attrs) (u v : NodeId) (key : Option Key) (dd : Attrs) :
    SameMeta g (g.addEdgeItem ad u v key dd).1 := by
  unfold addEdgeItem
  have h1 : ∀ (b : Bool) (x : KeyDict), SameMeta g (if b = true then g.putKeyDict u v x else g) := by
    intro b x; split
    · exact sameMeta_putKeyDict _ _ _ _
    · exact SameMeta.refl g
  simp only
  split
  · exact SameMeta.refl g
  · split
    · exact SameMeta.refl g
    · split
      · exact h1 _ _
      · split
        · rename_i h
          exact (h1 _ _).trans (sameMeta_addEdge' h)
        · exact h1 _ _

theorem setsEdge_of_view {g g' : DG} {u v : NodeId} {k : Key} {a : Attrs}
    (hk : ∀ u' v', g'.kd? u' v' = if u' = u ∧ v' = v then some (put ((g.kd? u v).getD []) k a) else g.kd? u' v')
    (hn : ∀ n, g'.nodeAttrs n = if n = u ∨ n = v then some ((g.nodeAttrs n).getD [("layers", .set [.str g.ns])])
      else g.nodeAttrs n) (hm : SameMeta g g') : SetsEdge g g' u v k a := by
  refine ⟨?_, ?_, hn, hm⟩
  · rw [edgeAttrs_of_put hk]; simp
  · intro u' v' k' hne
    rw [edgeAttrs_of_put hk, if_neg]
    rintro ⟨rfl, rfl, rfl⟩; exact hne rfl

theorem addsEdges_nil (g : DG) : AddsEdges g g [] :=
  ⟨by simp, by simp, by simp, by simp, by simp, SameMeta.refl g⟩

theorem addsEdges_single {g g' : DG} {u v : NodeId} {k : Key} {a : Attrs} (h : SetsEdge g g' u v k a)
    (hf : ¬ g.HasEdge u v k) : AddsEdges g g' [(u, v, k, a)] := by
  refine ⟨by simp, by simpa using hf, by simpa using h.edge, ?_, ?_, h.rest⟩
  · intro u' v' k' hn
    apply h.others
    intro heq; apply hn; simp [Edge.triple, heq]
  · intro n; rw [h.nodes]; simp

theorem addsEdges_cons {g g1 g2 : DG} {e : Edge} {es : List Edge} (h1 : AddsEdges g g1 [e]) (h2 : AddsEdges g1 g2 es) :
    AddsEdges g g2 (e :: es) := by
  have hadded := h1.added e (by simp)
  have hnotin : e.triple ∉ es.map Edge.triple := by
    intro hm
    obtain ⟨e', he', heq⟩ := List.mem_map.1 hm
    have := h2.fresh e' he'
    simp only [Edge.triple, Prod.mk.injEq] at heq
    rw [heq.1, heq.2.1, heq.2.2] at this
    apply this
    unfold HasEdge; rw [hadded]; rfl
  refine ⟨?_, ?_, ?_, ?_, ?_, h1.rest.trans h2.rest⟩
  · simp only [List.map_cons, List.nodup_cons]; exact ⟨hnotin, h2.distinct⟩
  · intro e' he'
    rcases List.mem_cons.1 he' with rfl | he'
    · exact h1.fresh e' (by simp)
    · intro hh
      apply h2.fresh e' he'
      by_cases heq : e'.triple = e.triple
      · simp only [Edge.triple, Prod.mk.injEq] at heq
        unfold HasEdge; rw [heq.1, heq.2.1, heq.2.2, hadded]; rfl
      · unfold HasEdge
        rw [h1.others]
        · exact hh
        · simpa [Edge.triple] using heq
  · intro e' he'
    rcases List.mem_cons.1 he' with rfl | he'
    · rw [h2.others _ _ _ hnotin]; exact hadded
    · exact h2.added e' he'
  · intro u v k hn
    simp only [List.map_cons, List.mem_cons, not_or] at hn
    rw [h2.others _ _ _ hn.2, h1.others]
    simpa using hn.1
  · intro n
    rw [h2.nodes, h1.nodes, h1.rest.2.1]
    have hsing : (∃ e' ∈ [e], n = e'.1 ∨ n = e'.2.1) ↔ (n = e.1 ∨ n = e.2.1) := by simp
    have hc : (∃ e' ∈ e :: es, n = e'.1 ∨ n = e'.2.1) ↔ ((n = e.1 ∨ n = e.2.1) ∨ ∃ e' ∈ es, n = e'.1 ∨ n = e'.2.1) := by
      simp only [List.mem_cons, exists_eq_or_imp]
    simp only [hsing, hc]
    by_cases hA : n = e.1 ∨ n = e.2.1
    · simp only [hA, true_or, if_true, Option.getD_some]
      split <;> rfl
    · simp only [hA, false_or, if_false]

theorem not_hasEdge_freshKey {g : DG} (u v : NodeId) : ¬ g.HasEdge u v (freshKey ((g.kd? u v).getD [])) := by
  unfold HasEdge edgeAttrs
  cases h : g.kd? u v with
  | none => simp
  | some kd =>
    simp only [Option.getD_some, Option.bind_some]
    rw [(find_eq_none_iff _ _).2 (freshKey_not_mem kd)]; simp

end DG
end Dg
