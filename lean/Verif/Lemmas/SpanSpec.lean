import Verif.Lemmas.SpanTree
import Verif.Props.C59Tree
import Verif.Props.C16

/-! `get_span` in a graph whose edges are known. -/

namespace Dg
open Dict
namespace DG

/-- one of the edges leads from `u` to `v` -/
def Leads (es : List EdgeSpec) (u v : NodeId) : Prop := ∃ e ∈ es, e.source = u ∧ e.target = v

/-- the edges have a type, and it is not the pointing relation -/
def Structural (es : List EdgeSpec) : Prop := ∀ e ∈ es, ∃ x, find e.attrs "edge_type" = some x ∧ x ≠ .atom (.str "points_to")

theorem key_unique {g : DG} {u v : NodeId} {k : Key} {a : Attrs} {k' : Key} {a' : Attrs} (hc : g.edgeCount u v = 1) (e : g.edgeAttrs u v k = some a) (e' : g.edgeAttrs u v k' = some a') : k = k' := by
  unfold edgeCount at hc
  unfold edgeAttrs at e e'
  cases hk : g.kd? u v with
  | none => rw [hk] at e; cases e
  | some kd =>
    rw [hk] at hc e e'
    rcases kd with _ | ⟨p, _ | ⟨q, kd⟩⟩
    · simp at hc
    · obtain ⟨q, b⟩ := p
      simp only [Option.bind_some, find] at e e'
      split at e
      · split at e'
        · simp_all
        · cases e'
      · cases e
    · simp at hc

variable {g : DG} {es : List EdgeSpec} {r : NodeId → Nat}

theorem edges_typed (he : EdgesAre g es) (hs : Structural es) {u v : NodeId} {k : Key} {a : Attrs} (h : g.edgeAttrs u v k = some a) : Leads es u v ∧ ∃ x, find a "edge_type" = some x ∧ x ≠ .atom (.str "points_to") := by
  obtain ⟨e, hm, h1, h2, h3, _⟩ := he.sound u v a ⟨k, h⟩
  obtain ⟨x, hx, hp⟩ := hs e hm
  exact ⟨⟨e, hm, h1, h2⟩, x, by rw [h3 _ (by decide)]; exact hx, hp⟩

theorem spanEdge_leads (he : EdgesAre g es) (hs : Structural es) (hr : ∀ e ∈ es, r e.target < r e.source) {u v : NodeId} : g.SpanEdge u v ↔ Leads es u v := by
  constructor
  · rintro ⟨_, k, a, _, h, _⟩
    exact (edges_typed he hs h).1
  · rintro ⟨e, hm, rfl, rfl⟩
    obtain ⟨a, ⟨k, ha⟩, _⟩ := he.complete e hm
    obtain ⟨_, x, hx, hp⟩ := edges_typed he hs ha
    exact ⟨fun h => by have := hr e hm; rw [h] at this; omega, k, a, x, ha, hx, hp⟩

theorem spans_leads (he : EdgesAre g es) (hs : Structural es) (hr : ∀ e ∈ es, r e.target < r e.source) {u v : NodeId} : g.Spans u v ↔ Relation.ReflTransGen (Leads es) u v := by
  constructor
  · intro h
    induction h with
    | refl => exact .refl
    | step e _ ih => exact .head ((spanEdge_leads he hs hr).1 e) ih
  · intro h
    induction h using Relation.ReflTransGen.head_induction_on with
    | refl => exact .refl _
    | head e _ ih => exact .step ((spanEdge_leads he hs hr).2 e) ih

/-- In a graph with the given edges (each with a type other than the pointing relation, no node with two incoming edges, no cycles), `get_span` returns the tokens that can be reached, each once, in natural order. -/
theorem span_of_edges (hi : Inv g) (he : EdgesAre g es) (hs : Structural es) (hn : (es.map EdgeSpec.target).Nodup) (hr : ∀ e ∈ es, r e.target < r e.source) {n : NodeId} (hg : g.HasNode n) {fuel : Nat} (hf : g.nodes.length ≤ fuel) :
    ∃ span, g.getSpan fuel n = .ok span ∧ span.Nodup ∧ span.Pairwise (fun a b => naturalLe a b = true) ∧ ∀ m, m ∈ span ↔ g.IsToken m ∧ Relation.ReflTransGen (Leads es) n m := by
  have hac : g.SpanAcyclic := acyclic_of_rank r (fun u v h => by
    obtain ⟨e, hm, rfl, rfl⟩ := (spanEdge_leads he hs hr).1 h
    exact hr e hm)
  have hu : g.UniqueSpanParent := by
    intro v u k a u' k' a' h _ h' _
    obtain ⟨⟨e, hm, rfl, rfl⟩, _⟩ := edges_typed he hs h
    obtain ⟨⟨e', hm', rfl, ht⟩, _⟩ := edges_typed he hs h'
    obtain rfl := List.inj_on_of_nodup_map hn hm hm' ht.symm
    exact ⟨rfl, key_unique (EdgesAre.single he hn hm).1 h h'⟩
  obtain ⟨span, hsp⟩ := getSpan_total hi.wf hac fuel n (by have := spanRank_lt_length hg; omega) hg (fun u v k a _ _ h => by
    obtain ⟨_, x, hx, _⟩ := edges_typed he hs h
    exact ⟨x, hx⟩)
  refine ⟨span, hsp, getSpan_nodup hi.wf hac hu fuel n span hsp, getSpan_sorted hsp, ?_⟩
  intro m
  rw [getSpan_mem hi.wf fuel n span hsp, spans_leads he hs hr]

end DG
end Dg
