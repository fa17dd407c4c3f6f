import Verif.Lemmas.NodesLayered

/-! C01: every node and edge always carries a set of layer names. -/

namespace Dg
open Dict
namespace DG

/-- **C01 (edges)**.  Whatever sequence of public calls a client makes on a new graph -- including calls that
raise half way through -- every edge has a `layers` attribute that is a non-empty set of strings. -/
theorem c01_every_edge_has_layers (name ns : String) (root : Option NodeId) (ops : List Op)
    (hv : ∀ op ∈ ops, op.Valid) (u v : NodeId) (k : Key) (a : Attrs)
    (h : ((init name ns root).run ops).edgeAttrs u v k = some a) : LayeredNE a :=
  (inv_run (inv_init name ns root) hv).edges u v k a h

/-- **C01 (nodes), partial**: the same for nodes, for histories that do not use the call pattern
`add_nodes_from([plain IDs], layers=...)`.  Missing: that pattern, for which the claim is false, see
`c01_fails_for_plain_ids_with_layers_kwarg`. -/
theorem c01_every_node_has_layers_partial (name ns : String) (root : Option NodeId) (ops : List Op)
    (hv : ∀ op ∈ ops, op.Valid) (hs : ∀ op ∈ ops, op.SafeLayers) (n : NodeId) (a : Attrs)
    (h : ((init name ns root).run ops).nodeAttrs n = some a) : Layered a :=
  (layeredB_false a).1
    (nodesLayered_run (inv_init name ns root) (nodesLayered_init False name ns root) hv hs (fun h => h.elim) n a h)

/-- **C01 (nodes, non-emptiness), partial**: if additionally no tuple passed to `add_nodes_from` has an
explicitly empty layer set, no node ever has an empty layer set. -/
theorem c01_node_layers_nonempty_partial (name ns : String) (root : Option NodeId) (ops : List Op)
    (hv : ∀ op ∈ ops, op.Valid) (hs : ∀ op ∈ ops, op.SafeLayers) (hne : ∀ op ∈ ops, op.NonEmptyLayers)
    (n : NodeId) (a : Attrs)
    (h : ((init name ns root).run ops).nodeAttrs n = some a) : LayeredNE a :=
  (layeredB_true a).1
    (nodesLayered_run (inv_init name ns root) (nodesLayered_init True name ns root) hv hs (fun _ => hne) n a h)

/-- **C01 is violated**: `d.add_nodes_from([1]); d.add_nodes_from([1], layers='x')` replaces the layer set of
node 1 by a string. -/
theorem c01_fails_for_plain_ids_with_layers_kwarg :
    ((init "" "dg" none).run
      [.addNodesFrom [.id (.int 1)] [], .addNodesFrom [.id (.int 1)] [("layers", .atom (.str "x"))]]).nodeAttr
        (.int 1) "layers" = some (.atom (.str "x")) := by decide

/-- **C01 is violated**: an empty layer set passed in a tuple is stored as it is. -/
theorem c01_fails_for_empty_set_in_tuple :
    ((init "" "dg" none).run [.addNodesFrom [.tup (.int 1) [("layers", .set [])]] []]).nodeAttr
        (.int 1) "layers" = some (.set []) := by decide

/-- the hypotheses are met by a history with failing calls, batches, removal and precedence edges -/
example :
    let ops : List Op := [
      .addNode (.int 1) (.set [.str "a"]) .none [("dg:token", .atom (.str "foo"))],
      .addNode (.int 2) (.list [.str "bad"]) .none [],
      .addNodesFrom [.id (.int 2), .tup (.int 3) [("layers", .set [.str "b"])], .tup (.int 4) [("layers", .atom .none)]] [],
      .addEdgesFrom [.e3 (.int 1) (.int 2) [], .badLen] .none [],
      .addLayer (.edge (.int 1) (.int 2)) (.atom (.str "l")),
      .removeNode (.int 3), .setTokens [.int 1, .int 2], .addPrecedence]
    (∀ op ∈ ops, op.Valid) ∧ (∀ op ∈ ops, op.SafeLayers) ∧ (∀ op ∈ ops, op.NonEmptyLayers) ∧
    ((init "" "dg" none).run ops).edgeAttr (.int 1) (.int 2) (.int 0) "layers" =
      some (.set [.str "dg", .str "l"]) := by
  refine ⟨?_, ?_, ?_, by decide⟩
  · intro op h; simp at h
    rcases h with rfl | rfl | rfl | rfl | rfl | rfl | rfl | rfl <;>
      simp [Op.Valid, AttrArg.Valid, NodeItem.Valid, EdgeItem.Valid, keys]
  · intro op h; simp at h
    rcases h with rfl | rfl | rfl | rfl | rfl | rfl | rfl | rfl <;> simp [Op.SafeLayers, keys]
  · intro op h; simp at h
    rcases h with rfl | rfl | rfl | rfl | rfl | rfl | rfl | rfl <;> simp [Op.NonEmptyLayers]
    rintro n d (⟨rfl, rfl⟩ | ⟨rfl, rfl⟩) <;> simp

end DG
end Dg
