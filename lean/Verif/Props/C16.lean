import Verif.Lemmas.SpanTree
import Verif.Lemmas.GraphStep

/-! C16: get_span returns exactly the dominated tokens, sorted. -/

namespace Dg
open Dict
namespace DG

/-- **C16 (what is returned)**.  On every graph built with the API, whenever `get_span(g, n)` returns, its elements are exactly the token nodes reachable
from `n` over edges that are neither pointing relations nor self-loops, and they are sorted by natural sort key. -/
theorem c16_span_is_dominated_tokens (g : DG) (hg : Reachable g) (fuel : Nat) (n : NodeId) (span : List NodeId)
    (h : g.getSpan fuel n = .ok span) :
    (∀ m, m ∈ span ↔ g.IsToken m ∧ g.Spans n m) ∧ span.Pairwise (fun a b => naturalLe a b = true) :=
  ⟨getSpan_mem hg.inv.wf fuel n span h, getSpan_sorted h⟩

/-- **C16 (termination)**.  If the non-pointing edges form no cycle, all edges reachable from `n` have an `edge_type`, and the recursion limit is at least the
number of nodes, `get_span(g, n)` returns for every node `n`. -/
theorem c16_span_terminates (g : DG) (hg : Reachable g) (hac : g.SpanAcyclic) (n : NodeId) (hn : g.HasNode n)
    (hty : ∀ u v k a, g.Spans n u → u ≠ v → g.edgeAttrs u v k = some a → ∃ x, find a "edge_type" = some x)
    (fuel : Nat) (hf : g.nodes.length ≤ fuel) : ∃ span, g.getSpan fuel n = .ok span :=
  getSpan_total hg.inv.wf hac fuel n (by have := spanRank_lt_length hn; omega) hn hty

/-- **C16 (no duplicates on trees)**.  If moreover no node has two incoming non-pointing edges, no token is listed twice. -/
theorem c16_span_nodup_on_trees (g : DG) (hg : Reachable g) (hac : g.SpanAcyclic) (hu : g.UniqueSpanParent) (fuel : Nat) (n : NodeId)
    (span : List NodeId) (h : g.getSpan fuel n = .ok span) : span.Nodup :=
  getSpan_nodup hg.inv.wf hac hu fuel n span h

/-- **C16 (no duplicates below trees)**.  It suffices that no two paths of non-pointing edges lead from `n` to the same node (overlapping spans elsewhere do not matter). -/
theorem c16_span_nodup_below_trees (g : DG) (hg : Reachable g) (hac : g.SpanAcyclic) (fuel : Nat) (n : NodeId) (hu : g.SpanTreeBelow n)
    (span : List NodeId) (h : g.getSpan fuel n = .ok span) : span.Nodup :=
  getSpan_nodup_below hg.inv.wf hac fuel n span hu h

/-- **C16 (cycles)**.  Conversely, from a node that leads into a cycle of non-pointing edges `get_span` never returns, whatever the recursion limit. -/
theorem c16_span_diverges_on_cycles (g : DG) (hg : Reachable g) (n u v : NodeId) (h1 : g.Spans n u) (h2 : g.SpanEdge u v) (h3 : g.Spans v u)
    (fuel : Nat) (span : List NodeId) : g.getSpan fuel n ≠ .ok span := by
  have wf := hg.inv.wf
  induction fuel generalizing n span with
  | zero => simp [getSpan]
  | succ fuel ih =>
    intro h
    obtain ⟨f, a, rest, hf, ha, hs, _⟩ := getSpan_succ h
    obtain rfl : fuel = f := by omega
    obtain ⟨yss, h4, _⟩ := spanLoop_ok hs
    have hstep : ∀ w, g.SpanEdge n w → g.Spans w u → False := by
      intro w e hw
      obtain ⟨e', he1, he2, rfl⟩ := (followed_iff_spanEdge wf _ _).1 e
      obtain ⟨ys, _, hr⟩ := forall₂_mem_left h4 (List.mem_filter.2 ⟨he1, decide_eq_true he2⟩)
      exact ih _ hw _ hr
    cases h1 with
    | refl => exact hstep v h2 h3
    | step e hrest => exact hstep _ e hrest

/-- a small tree: np dominates t10 and t9, s dominates np; np also points to s -/
def sampleTree : DG :=
  (DG.init "" "d" none).run [
    .addNode (.str "t9") (.atom .none) .none [("d:token", .atom (.str "das"))],
    .addNode (.str "t10") (.atom .none) .none [("d:token", .atom (.str "Haus"))],
    .addEdge (.str "s") (.str "np") (.atom .none) none .none [("edge_type", .atom (.str "dominates"))],
    .addEdge (.str "np") (.str "t10") (.atom .none) none .none [("edge_type", .atom (.str "spans"))],
    .addEdge (.str "np") (.str "t9") (.atom .none) none .none [("edge_type", .atom (.str "spans"))],
    .addEdge (.str "np") (.str "s") (.atom .none) none .none [("edge_type", .atom (.str "points_to"))],
    .setTokens [.str "t9", .str "t10"]]

theorem sampleTree_reachable : Reachable sampleTree := ⟨"", "d", none, _, by decide, rfl⟩

theorem sampleTree_edge {u v : NodeId} (h : sampleTree.SpanEdge u v) :
    (u, v) ∈ [(NodeId.str "s", NodeId.str "np"), (.str "np", .str "t10"), (.str "np", .str "t9")] := by
  have wf := sampleTree_reachable.inv.wf
  obtain ⟨hne, k, a, x, ha, hx, hp⟩ := h
  have hmem := (mem_edges_iff wf u v k a).2 ha
  have key : ∀ e ∈ sampleTree.edges, followed e → (e.1, e.2.1) ∈ [(NodeId.str "s", NodeId.str "np"), (.str "np", .str "t10"), (.str "np", .str "t9")] := by decide
  exact key _ hmem ⟨hne, x, hx, hp⟩

/-- distance from the leaves in the sample tree -/
def sampleRank (n : NodeId) : Nat := if n = .str "s" then 2 else if n = .str "np" then 1 else 0

theorem acyclic_of_rank {g : DG} (r : NodeId → Nat) (h : ∀ u v, g.SpanEdge u v → r v < r u) : g.SpanAcyclic := by
  have : ∀ u v, g.Spans u v → r v ≤ r u := by
    intro u v hs
    induction hs with
    | refl => exact Nat.le_refl _
    | step e _ ih => have := h _ _ e; omega
  intro u v e hs
  have h1 := h _ _ e
  have h2 := this _ _ hs
  omega

example : Reachable sampleTree ∧ sampleTree.SpanAcyclic ∧ sampleTree.UniqueSpanParent ∧
    sampleTree.getSpan sampleTree.nodes.length (.str "s") = .ok [.str "t9", .str "t10"] ∧
    (∀ u v k a, u ≠ v → sampleTree.edgeAttrs u v k = some a → ∃ x, find a "edge_type" = some x) := by
  have wf := sampleTree_reachable.inv.wf
  refine ⟨sampleTree_reachable, acyclic_of_rank sampleRank ?_, ?_, by decide +kernel, ?_⟩
  · intro u v h
    have := sampleTree_edge h
    simp only [List.mem_cons, Prod.mk.injEq, List.not_mem_nil, or_false] at this
    rcases this with ⟨rfl, rfl⟩ | ⟨rfl, rfl⟩ | ⟨rfl, rfl⟩ <;> decide
  · intro v u k a u' k' a' h1 f1 h2 f2
    have m1 := (mem_edges_iff wf _ _ _ _).2 h1
    have m2 := (mem_edges_iff wf _ _ _ _).2 h2
    have key : ∀ e ∈ sampleTree.edges, ∀ e' ∈ sampleTree.edges, e.2.1 = e'.2.1 → followed e → followed e' → e.1 = e'.1 ∧ e.2.2.1 = e'.2.2.1 := by decide
    exact key _ m1 _ m2 rfl f1 f2
  · intro u v k a _ h
    have m1 := (mem_edges_iff wf _ _ _ _).2 h
    have key : ∀ e ∈ sampleTree.edges, (find e.2.2.2 "edge_type").isSome = true := by decide
    exact Option.isSome_iff_exists.1 (key _ m1)

/-- On a graph in which a node is dominated twice, a token is listed once per path: uniqueness needs the tree hypothesis. -/
theorem c16_fails_nodup_on_dags :
    (sampleTree.run [.addEdge (.str "s") (.str "t9") (.atom .none) none .none [("edge_type", .atom (.str "spans"))]]).getSpan 9 (.str "s") =
      .ok [.str "t9", .str "t9", .str "t10"] := by decide +kernel

end DG
end Dg
