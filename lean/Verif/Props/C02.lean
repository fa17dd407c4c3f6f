import Verif.Lemmas.Keeps

/-! C02: growing a graph never loses layers, nodes or edges. -/

namespace Dg
open Dict
namespace DG

/-- **C02 (nodes, edges, edge layers)**.  From any reachable graph, any history of add_* / add_layer calls
(each may succeed, raise, or raise half way) keeps every node, every edge and every layer of every edge. -/
theorem c02_growth_keeps_nodes_edges_edge_layers (g : DG) (hr : Reachable g) (ops : List Op)
    (hv : ∀ op ∈ ops, op.Valid) (hg : ∀ op ∈ ops, op.Grows) : Keeps g (g.run ops) := by
  have hi := hr.inv
  clear hr
  induction ops generalizing g with
  | nil => exact Keeps.refl g
  | cons op ops ih =>
    exact (keeps_step hi (hv op (by simp)) (hg op (by simp))).1.trans
      (ih _ (fun o ho => hv o (List.mem_cons_of_mem _ ho)) (fun o ho => hg o (List.mem_cons_of_mem _ ho))
        (inv_step hi (hv op (by simp))))

/-- **C02 (node layers), partial**: node layers are kept, too, by histories that do not contain
`add_nodes_from([plain IDs], layers=...)`.  Missing: that call, see `c02_fails_...`. -/
theorem c02_growth_keeps_node_layers_partial (g : DG) (hr : Reachable g) (ops : List Op)
    (hv : ∀ op ∈ ops, op.Valid) (hg : ∀ op ∈ ops, op.Grows) (hs : ∀ op ∈ ops, op.SafeLayers) :
    KeepsNodeLayers g (g.run ops) := by
  have hi := hr.inv
  clear hr
  induction ops generalizing g with
  | nil => exact fun _ _ h => h
  | cons op ops ih =>
    intro n l h
    exact ih _ (fun o ho => hv o (List.mem_cons_of_mem _ ho)) (fun o ho => hg o (List.mem_cons_of_mem _ ho))
        (fun o ho => hs o (List.mem_cons_of_mem _ ho))
        (inv_step hi (hv op (by simp))) n l
        ((keeps_step hi (hv op (by simp)) (hg op (by simp))).2 (hs op (by simp)) n l h)

/-- **C02 is violated**: `add_nodes_from([1], layers={'new'})` drops layer 'old' of node 1. -/
theorem c02_fails_for_plain_ids_with_layers_kwarg :
    let g := (init "" "dg" none).run [.addNode (.int 1) (.set [.str "old"]) .none []]
    g.nodeAttr (.int 1) "layers" = some (.set [.str "old"]) ∧
    (g.run [.addNodesFrom [.id (.int 1)] [("layers", .set [.str "new"])]]).nodeAttr (.int 1) "layers" =
      some (.set [.str "new"]) := by decide

/-- non-vacuity: a reachable graph with an edge, grown by a batch that raises half way -/
example :
    let g := (init "" "dg" none).run [.addEdge (.int 1) (.int 2) (.set [.str "a"]) none .none []]
    let ops : List Op := [.addEdgesFrom [.e4 (.int 1) (.int 2) (.int 0) [("layers", .set [.str "b"])], .badLen] .none []]
    Reachable g ∧ (∀ op ∈ ops, op.Valid ∧ op.Grows ∧ op.SafeLayers) ∧ g.HasEdge (.int 1) (.int 2) (.int 0) ∧
    (g.run ops).edgeAttr (.int 1) (.int 2) (.int 0) "layers" = some (.set [.str "b", .str "a"]) := by
  refine ⟨⟨"", "dg", none, _, ?_, rfl⟩, ?_, by decide, by decide⟩
  · simp [Op.Valid, AttrArg.Valid, keys]
  · simp [Op.Valid, AttrArg.Valid, keys, Op.Grows, Op.SafeLayers, EdgeItem.Valid]

end DG
end Dg
