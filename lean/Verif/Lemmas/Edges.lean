import Verif.Lemmas.AddsEdges
import Mathlib.Data.List.Nodup

namespace Dg
open Dict
namespace DG

theorem mem_edges_iff {g : DG} (wf : WF g) (u v : NodeId) (k : Key) (a : Attrs) :
    (u, v, k, a) ∈ g.edges ↔ g.edgeAttrs u v k = some a := by
  have hadj : (keys g.adj).Nodup := by rw [wf.adjKeys]; exact wf.nodesNodup
  unfold edges
  simp only [List.mem_flatMap, List.mem_map]
  constructor
  · rintro ⟨⟨u', d⟩, h1, ⟨v', kd⟩, h2, ⟨k', a'⟩, h3, heq⟩
    simp only [Prod.mk.injEq] at heq
    obtain ⟨rfl, rfl, rfl, rfl⟩ := heq
    have f1 := mem_find hadj h1
    have f2 := mem_find (wf.nbrsNodup _ _ f1) h2
    have hkd : g.kd? u' v' = some kd := by unfold kd?; rw [f1]; exact f2
    unfold edgeAttrs
    rw [hkd]
    exact mem_find (wf.kdNodup _ _ _ hkd) h3
  · intro h
    unfold edgeAttrs kd? at h
    cases f1 : find g.adj u with
    | none => rw [f1] at h; simp at h
    | some d =>
      rw [f1] at h; simp only [Option.bind_some] at h
      cases f2 : find d v with
      | none => rw [f2] at h; simp at h
      | some kd =>
        rw [f2] at h; simp only [Option.bind_some] at h
        exact ⟨(u, d), find_some_mem f1, (v, kd), find_some_mem f2, (k, a), find_some_mem h, rfl⟩

theorem edges_triple_nodup {g : DG} (wf : WF g) : (g.edges.map Edge.triple).Nodup := by
  have hadj : (keys g.adj).Nodup := by rw [wf.adjKeys]; exact wf.nodesNodup
  unfold edges
  have key : ∀ (l : Dict NodeId (Dict NodeId KeyDict)), (keys l).Nodup →
      (∀ p ∈ l, (keys p.2).Nodup ∧ ∀ q ∈ p.2, (keys q.2).Nodup) →
      ((l.flatMap fun p => p.2.flatMap fun q => q.2.map fun r => ((p.1, q.1, r.1, r.2) : Edge)).map Edge.triple).Nodup := by
    intro l
    induction l with
    | nil => intro _ _; simp
    | cons p l ih =>
      intro hnd hall
      simp only [keys, List.map_cons, List.nodup_cons] at hnd
      rw [List.flatMap_cons, List.map_append, List.nodup_append']
      refine ⟨?_, ih hnd.2 (fun p hp => hall p (List.mem_cons_of_mem _ hp)), ?_⟩
      · have hp := hall p (by simp)
        have inner : ∀ (m : Dict NodeId KeyDict), (keys m).Nodup → (∀ q ∈ m, (keys q.2).Nodup) →
            ((m.flatMap fun q => q.2.map fun r => ((p.1, q.1, r.1, r.2) : Edge)).map Edge.triple).Nodup := by
          intro m
          induction m with
          | nil => intro _ _; simp
          | cons q m ihm =>
            intro hm hq
            simp only [keys, List.map_cons, List.nodup_cons] at hm
            rw [List.flatMap_cons, List.map_append, List.nodup_append']
            refine ⟨?_, ihm hm.2 (fun q' h' => hq q' (List.mem_cons_of_mem _ h')), ?_⟩
            · have hk := hq q (by simp)
              rw [List.map_map]
              have : (Edge.triple ∘ fun r : Key × Attrs => ((p.1, q.1, r.1, r.2) : Edge)) =
                  (fun k => (p.1, q.1, k)) ∘ Prod.fst := by funext r; rfl
              rw [this, ← List.map_map]
              refine List.Nodup.map ?_ hk
              intro x y hxy; simpa using hxy
            · intro t h1 h2
              simp only [List.map_map, List.mem_map, Function.comp] at h1
              obtain ⟨r, _, rfl⟩ := h1
              simp only [List.mem_map, List.mem_flatMap] at h2
              obtain ⟨_, ⟨q', hq', r', _, rfl⟩, heq⟩ := h2
              simp only [Edge.triple, Prod.mk.injEq] at heq
              exact hm.1 (List.mem_map.2 ⟨q', hq', heq.2.1⟩)
        exact inner p.2 hp.1 hp.2
      · intro t h1 h2
        simp only [List.mem_map, List.mem_flatMap] at h1 h2
        obtain ⟨_, ⟨q, _, r, _, rfl⟩, rfl⟩ := h1
        obtain ⟨_, ⟨p', hp', q', _, r', _, rfl⟩, heq⟩ := h2
        simp only [Edge.triple, Prod.mk.injEq] at heq
        exact hnd.1 (List.mem_map.2 ⟨p', hp', heq.1⟩)
  apply key _ hadj
  intro p hp
  have f1 := mem_find (k := p.1) (v := p.2) hadj hp
  refine ⟨wf.nbrsNodup _ _ f1, ?_⟩
  intro q hq
  have f2 := mem_find (k := q.1) (v := q.2) (wf.nbrsNodup _ _ f1) hq
  refine wf.kdNodup p.1 q.1 _ ?_
  unfold kd?; rw [f1]; exact f2

theorem edges_nodup {g : DG} (wf : WF g) : g.edges.Nodup := List.Nodup.of_map _ (edges_triple_nodup wf)

end DG
end Dg
