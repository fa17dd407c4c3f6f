import Verif.Lemmas.RelabelLoop
import Verif.Lemmas.GraphStep

/-! C22: relabel_nodes. -/

namespace Dg
open Dict
namespace DG

theorem inj_of_nodup_vals {m : Dict NodeId NodeId} (nk : (keys m).Nodup) (nv : (vals m).Nodup) {o o' n : NodeId}
    (h : find m o = some n) (h' : find m o' = some n) : o = o' := by
  have h1 := find_some_mem h
  have h2 := find_some_mem h'
  have := List.inj_on_of_nodup_map nv h1 h2 rfl
  simpa using congrArg Prod.fst this

/-- **C22, partial** (labels not yet used).  For a mapping from nodes of the graph to different labels that are not used in the graph, relabel_nodes
succeeds, whatever order the labels are processed in, and yields the same graph with renamed nodes: same attributes, layers and edge keys, nothing lost, nothing added.
Missing: a mapping to one of the labels 0 and '' for a node with an edge to itself, see `c22_fails_for_falsy_label_with_self_loop`. -/
theorem c22_relabel_nodes_partial (g : DG) (hr : Inv g) (hl : NodesLayeredNE g) (m : Dict NodeId NodeId) (nk : (keys m).Nodup) (nv : (vals m).Nodup)
    (hold : ∀ o ∈ keys m, g.HasNode o) (hnew : ∀ n ∈ vals m, ¬ g.HasNode n)
    (hself : ∀ o n, (o, n) ∈ m → n.truthy = true ∨ ∀ k, ¬ g.HasEdge o o k)
    (order : Option (List NodeId)) (ho : RelabelOrder m order) :
    ∃ g', relabelInplace g m order = (g', none) ∧ Renamed (applyMap m) g g' := by
  have hdis : ¬ ∃ x, x ∈ keys m ∧ x ∈ vals m := by rintro ⟨x, h1, h2⟩; exact hnew x h2 (hold x h1)
  unfold RelabelOrder at ho
  rw [if_neg hdis] at ho
  obtain ⟨l, rfl, hp⟩ := ho
  have hval : ∀ {o n}, find m o = some n → n ∈ vals m := fun h => List.mem_map_of_mem (f := Prod.snd) (find_some_mem h)
  obtain ⟨g', e1, _, _, e4⟩ := relabelLoop_spec hr.inv m l (hp.nodup_iff.2 nk) hold (fun o o' n => inj_of_nodup_vals nk nv)
    (fun o n h => Or.inl (hnew n (hval h))) (fun o n h => hself o n (find_some_mem h)) l [] g (by simp) hr.inv hl
    ((Renamed.refl g).congr hr.inv.wf (by intro n _; simp [applyOn]))
  rw [applyOn_all (fun o h => hp.mem_iff.2 h)] at e4
  exact ⟨g', e1, e4⟩

/-- **C22 for overlapping labels, partial**.  New labels may also be labels that are themselves replaced, e.g. `{2: 1, 3: 2}`: then relabel_nodes either finds an order and
renames exactly as specified, or there is no such order, it raises NetworkXUnfeasible and leaves the graph as it was.
Missing: nodes mapped to themselves, see `c22_fails_for_identity_mapping`. -/
theorem c22_relabel_nodes_overlapping_partial (g : DG) (hr : Inv g) (hl : NodesLayeredNE g) (m : Dict NodeId NodeId) (nk : (keys m).Nodup) (nv : (vals m).Nodup)
    (hold : ∀ o ∈ keys m, g.HasNode o) (hnew : ∀ n ∈ vals m, ¬ g.HasNode n ∨ n ∈ keys m) (hid : ∀ o n, (o, n) ∈ m → o ≠ n)
    (hself : ∀ o n, (o, n) ∈ m → n.truthy = true ∨ ∀ k, ¬ g.HasEdge o o k)
    (order : Option (List NodeId)) (ho : RelabelOrder m order) :
    (∃ g', relabelInplace g m order = (g', none) ∧ Renamed (applyMap m) g g') ∨
      (relabelInplace g m order = (g, some .unfeasible) ∧ ∀ l, ¬ ReverseTopological m l) := by
  by_cases hov : ∃ x, x ∈ keys m ∧ x ∈ vals m
  · unfold RelabelOrder at ho
    rw [if_pos hov] at ho
    cases order with
    | none => exact Or.inr ⟨rfl, ho⟩
    | some l =>
      left
      obtain ⟨h1, h2, h3⟩ := ho
      obtain ⟨g', e1, _, _, e4⟩ := relabelLoop_spec hr.inv m l h1 hold (fun o o' n => inj_of_nodup_vals nk nv)
        (fun o n h => by
          have hm := find_some_mem h
          rcases hnew n (List.mem_map_of_mem (f := Prod.snd) hm) with h' | h'
          · exact Or.inl h'
          · exact Or.inr ⟨h', h3 _ _ hm (hid _ _ hm)⟩)
        (fun o n h => hself o n (find_some_mem h)) l [] g (by simp) hr.inv hl
        ((Renamed.refl g).congr hr.inv.wf (by intro n _; simp [applyOn]))
      rw [applyOn_all (fun o h => (h2 o).2 (Or.inl h))] at e4
      exact ⟨g', e1, e4⟩
  · left
    refine c22_relabel_nodes_partial g hr hl m nk nv hold (fun n hn => ?_) hself order ho
    rcases hnew n hn with h | h
    · exact h
    · exact absurd ⟨n, h, hn⟩ hov

/-- **C22 (unknown label)**: a label that is no node of the graph raises KeyError when it is processed -/
theorem c22_unknown_label_raises (g : DG) (o n : NodeId) (h : ¬ g.HasNode o) : relabelInplace g [(o, n)] (some [o]) = (g, some .key) := by
  have h1 : find g.nodes o = none := (find_eq_none_iff _ _).2 h
  simp [relabelInplace, relabelLoop, relabelOne, h1]

/-- two tokens and an edge between them -/
def twoNodes : DG := (init "" "a" none).run [.addNode (.int 1) (.atom .none) .none [("label", .atom (.str "x"))],
  .addNode (.int 2) (.set [.str "b"]) .none [], .addEdge (.int 1) (.int 2) (.atom .none) none .none [("edge_type", .atom (.str "points_to"))],
  .addEdge (.int 2) (.int 1) (.atom .none) (some (.str "k")) .none [], .addEdge (.int 2) (.int 2) (.atom .none) none .none []]

theorem reachable_twoNodes : Reachable twoNodes := ⟨"", "a", none, _, by decide, rfl⟩

theorem layered_of_all {g : DG} (h : ∀ p ∈ g.nodes, ∃ xs, find p.2 "layers" = some (.set xs) ∧ (∀ x ∈ xs, ∃ s, x = Atom.str s) ∧ xs ≠ []) : NodesLayeredNE g :=
  fun n a ha => h (n, a) (find_some_mem ha)

theorem layered_twoNodes : NodesLayeredNE twoNodes := by
  apply layered_of_all
  have : twoNodes.nodes = [(.str "a:root_node", [("layers", .set [.str "a"]), ("metadata", .dict [])]),
    (.int 1, [("label", .atom (.str "x")), ("layers", .set [.str "a"])]), (.int 2, [("layers", .set [.str "b"])])] := by decide
  rw [this]
  intro p hp
  simp at hp
  rcases hp with rfl | rfl | rfl <;> simp

/-- the hypotheses are met: two nodes with edges in both directions and a self-loop are renamed -/
example : ∃ g', relabelInplace twoNodes [(.int 1, .str "t1"), (.int 2, .str "t2")] (some [.int 2, .int 1]) = (g', none) ∧
    Renamed (applyMap [(.int 1, .str "t1"), (.int 2, .str "t2")]) twoNodes g' ∧
    twoNodes.HasEdge (.int 2) (.int 1) (.str "k") ∧ g'.HasEdge (.str "t2") (.str "t1") (.str "k") := by
  obtain ⟨g', h1, h2⟩ := c22_relabel_nodes_partial twoNodes reachable_twoNodes.inv layered_twoNodes [(.int 1, .str "t1"), (.int 2, .str "t2")] (by decide) (by decide)
    (by decide) (by decide) (by intro o n h; left; simp at h; rcases h with ⟨_, rfl⟩ | ⟨_, rfl⟩ <;> decide)
    (some [.int 2, .int 1]) (by
      unfold RelabelOrder
      rw [if_neg (by rintro ⟨x, hx1, hx2⟩; simp [keys, vals] at hx1 hx2; rcases hx1 with rfl | rfl <;> simp at hx2)]
      exact ⟨_, rfl, List.Perm.swap _ _ _⟩)
  refine ⟨g', h1, h2, by decide, ?_⟩
  obtain ⟨a, ha⟩ := Option.isSome_iff_exists.1 (show (twoNodes.edgeAttrs (.int 2) (.int 1) (.str "k")).isSome = true by decide)
  obtain ⟨a', h3, _⟩ := h2.edges _ _ _ _ ha
  exact Option.isSome_iff_exists.2 ⟨a', h3⟩

/-- overlapping labels: 2 becomes 3, 1 becomes 2 -/
example : ReverseTopological [(.int 1, .int 2), (.int 2, .int 3)] [.int 3, .int 2, .int 1] := by
  refine ⟨by decide, ?_, ?_⟩
  · intro x; simp [keys, vals]; constructor
    · rintro (rfl | rfl | rfl) <;> simp
    · rintro ((rfl | rfl) | (rfl | rfl)) <;> simp
  · intro o n h _; simp at h
    rcases h with ⟨rfl, rfl⟩ | ⟨rfl, rfl⟩
    · exact ⟨[.int 3, .int 2], [], rfl, by simp⟩
    · exact ⟨[.int 3], [.int 1], rfl, by simp⟩

/-- **C22 is violated**: relabelling a node to the label it already has loses its attributes (and an isolated node altogether). -/
theorem c22_fails_for_identity_mapping :
    twoNodes.nodeAttr (.int 1) "label" = some (.atom (.str "x")) ∧
    (relabelInplace twoNodes [(.int 1, .int 1)] (some [.int 1])).2 = none ∧
    (relabelInplace twoNodes [(.int 1, .int 1)] (some [.int 1])).1.nodeAttr (.int 1) "label" = none ∧
    ¬ (relabelInplace ((init "" "a" none).run [.addNode (.int 1) (.atom .none) .none []]) [(.int 1, .int 1)] (some [.int 1])).1.HasNode (.int 1) := by
  decide

/-- **C22 is violated**: if a node with an edge to itself gets the label 0 (or ''), the old node comes back and the self-loop is torn apart. -/
theorem c22_fails_for_falsy_label_with_self_loop :
    let g' := (relabelInplace twoNodes [(.int 2, .int 0)] (some [.int 2])).1
    twoNodes.HasEdge (.int 2) (.int 2) (.int 0) ∧ ¬ twoNodes.HasNode (.int 0) ∧
    g'.HasNode (.int 2) ∧ ¬ g'.HasEdge (.int 0) (.int 0) (.int 0) ∧ g'.HasEdge (.int 0) (.int 2) (.int 0) := by
  decide

end DG
end Dg
