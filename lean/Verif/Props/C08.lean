import Verif.Model.Select
import Verif.Lemmas.Keeps
import Verif.Props.C01

/-! C08, C09, C10: node and neighbour selection is exact. -/

namespace Dg
open Dict

namespace DG
@[simp] theorem yieldIf_true {α : Type} (x : α) : yieldIf x (.ok true) = .ok (some x) := rfl
@[simp] theorem yieldIf_false {α : Type} (x : α) : yieldIf x (.ok false) = .ok none := rfl
@[simp] theorem yieldIf_error {α : Type} (x : α) (e : PyErr) : yieldIf x (.error e) = .error e := rfl
end DG

namespace Gen
variable {α β : Type}

/-- a generator loop whose body never raises is a filter -/
theorem collect_yieldIf {xs : List α} {f : α → Except PyErr Bool} {c : α → Bool} (h : ∀ x ∈ xs, f x = .ok (c x)) :
    collect (fun x => DG.yieldIf x (f x)) xs = (xs.filter c, none) := by
  induction xs with
  | nil => rfl
  | cons x xs ih =>
    have ih := ih (fun y hy => h y (List.mem_cons_of_mem _ hy))
    have hx := h x (by simp)
    unfold collect
    cases hc : c x with
    | true => simp [hx, hc, ih]
    | false => simp [hx, hc, ih]
end Gen

namespace DG

/-- what a layer filter asks for -/
def Filter.Layers (f : Filter) (P : String → Prop) : Prop :=
  match f with
  | .any => True
  | .one l => P l
  | .many ls => ∃ l ∈ ls, P l

/-- every node carries a set of layer names (C01 proves this for all histories that do not use the faulty call described there) -/
def AllLayered (g : DG) : Prop := ∀ n a, g.nodeAttrs n = some a → Layered a

theorem pyAnyIn_set (xs : List Atom) (ls : List String) :
    pyAnyIn (.ok (.set xs)) ls = .ok (ls.any (fun l => decide (Atom.str l ∈ xs))) := by
  induction ls with
  | nil => rfl
  | cons l ls ih =>
    simp only [pyAnyIn, bind, Except.bind, pyIn, List.any_cons, ih]
    by_cases h : Atom.str l ∈ xs <;> simp [h]

/-- the boolean computed by a layer filter on a proper layers set -/
def layerTest (f : Filter) (xs : List Atom) : Bool :=
  match f with
  | .any => true
  | .one l => decide (Atom.str l ∈ xs)
  | .many ls => ls.any (fun l => decide (Atom.str l ∈ xs))

theorem layerCondition_set {a : Attrs} {xs : List Atom} (h : find a "layers" = some (.set xs)) (f : Filter) :
    layerCondition f a = .ok (layerTest f xs) := by
  have he : layersEntry a = .ok (.set xs) := by simp [layersEntry, h]
  cases f with
  | any => rfl
  | one l => simp [layerCondition, he, bind, Except.bind, pyIn, layerTest]
  | many ls => simp [layerCondition, he, pyAnyIn_set, layerTest]

theorem layerTest_iff (f : Filter) (a : Attrs) (xs : List Atom) (h : find a "layers" = some (.set xs)) :
    layerTest f xs = true ↔ Filter.Layers f (fun l => AttrsLayer a (.str l)) := by
  have : ∀ l, AttrsLayer a (.str l) ↔ Atom.str l ∈ xs := by
    intro l; unfold AttrsLayer; rw [h]; simp
  cases f <;> simp [layerTest, Filter.Layers, this]

theorem mem_nodes_iff {g : DG} (wf : WF g) (n : NodeId) (a : Attrs) : (n, a) ∈ g.nodes ↔ g.nodeAttrs n = some a :=
  mem_iff_find wf.nodesNodup n a

theorem sublist_keys_of_filter {K V : Type} (d : Dict K V) (c : K × V → Bool) : ((d.filter c).map Prod.fst).Sublist (keys d) :=
  List.Sublist.map _ List.filter_sublist

/-- a check of the layers of all nodes (for examples) -/
theorem allLayered_of_check {g : DG} (wf : WF g) (key : ∀ p ∈ g.nodes, (match find p.2 "layers" with | some (.set xs) => xs.all (fun x => match x with | .str _ => true | _ => false) | _ => false) = true) : AllLayered g := by
  intro n a h
  have := key _ ((mem_nodes_iff wf _ _).2 h)
  dsimp only at this
  split at this
  · rename_i xs hx
    refine ⟨xs, hx, ?_⟩
    intro x hxs
    have h2 := List.all_eq_true.1 this x hxs
    split at h2
    · exact ⟨_, rfl⟩
    · cases h2
  · cases this

/-- the same for all graphs with consistent dicts (used for graphs that were built by a reader) -/
theorem selectNodesByLayer_wf {g : DG} (wf : WF g) (hl : AllLayered g) (layer : Filter) :
    ∃ ids, g.selectNodesByLayer layer = (ids, none) ∧ ids.Nodup ∧ ids.Sublist (keys g.nodes) ∧
      ∀ n, n ∈ ids ↔ g.HasNode n ∧ Filter.Layers layer (fun l => g.NodeLayer n (.str l)) := by
  let c : NodeId × Attrs → Bool := fun p => match find p.2 "layers" with
    | some (.set xs) => layerTest layer xs
    | _ => false
  have hc : ∀ p ∈ g.nodes, layerCondition layer p.2 = .ok (c p) := by
    intro p hp
    obtain ⟨xs, hx, _⟩ := hl p.1 p.2 ((mem_nodes_iff wf _ _).1 hp)
    simp only [c, hx]
    exact layerCondition_set hx layer
  have hsel : g.selectNodesByLayer layer = ((g.nodes.filter c).map Prod.fst, none) := by
    simp [selectNodesByLayer, selectNodesByLayerData, Gen.collect_yieldIf hc, Gen.map]
  refine ⟨_, hsel, ?_, sublist_keys_of_filter _ _, ?_⟩
  · exact wf.nodesNodup.sublist (sublist_keys_of_filter _ _)
  · intro n
    constructor
    · intro hn
      obtain ⟨⟨m, a⟩, hp, rfl⟩ := List.mem_map.1 hn
      rw [List.mem_filter] at hp
      have ha := (mem_nodes_iff wf _ _).1 hp.1
      obtain ⟨xs, hx, _⟩ := hl m a ha
      have := hp.2
      simp only [c, hx] at this
      refine ⟨(hasNode_iff _ _).2 ⟨a, ha⟩, ?_⟩
      have h2 := (layerTest_iff layer a xs hx).1 this
      have hcong : ∀ l, g.NodeLayer m (.str l) ↔ AttrsLayer a (.str l) := by
        intro l; unfold NodeLayer; rw [ha]; simp
      cases layer <;> simp_all [Filter.Layers]
    · rintro ⟨hn, hL⟩
      obtain ⟨a, ha⟩ := (hasNode_iff _ _).1 hn
      obtain ⟨xs, hx, _⟩ := hl n a ha
      have hcong : ∀ l, g.NodeLayer n (.str l) ↔ AttrsLayer a (.str l) := by
        intro l; unfold NodeLayer; rw [ha]; simp
      have h2 : Filter.Layers layer (fun l => AttrsLayer a (.str l)) := by
        cases layer <;> simp_all [Filter.Layers]
      refine List.mem_map.2 ⟨(n, a), List.mem_filter.2 ⟨(mem_nodes_iff wf _ _).2 ha, ?_⟩, rfl⟩
      simp only [c, hx]
      exact (layerTest_iff layer a xs hx).2 h2

/-- **C08**.  In any reachable graph whose nodes carry layer sets, `select_nodes_by_layer(g, layer)` does not raise; it yields each
node of (one of) the given layer(s) exactly once, in graph order, and no other node; `layer=None` yields every node. -/
theorem c08_select_nodes_by_layer (g : DG) (hr : Reachable g) (hl : AllLayered g) (layer : Filter) :
    ∃ ids, g.selectNodesByLayer layer = (ids, none) ∧ ids.Nodup ∧ ids.Sublist (keys g.nodes) ∧
      ∀ n, n ∈ ids ↔ g.HasNode n ∧ Filter.Layers layer (fun l => g.NodeLayer n (.str l)) := 
  selectNodesByLayer_wf hr.inv.wf hl layer

/-- With `data=True` the same nodes are yielded, each with its attribute dict. -/
theorem c08_select_nodes_by_layer_data (g : DG) (hr : Reachable g) (layer : Filter) :
    (g.selectNodesByLayerData layer).1.map Prod.fst = (g.selectNodesByLayer layer).1 ∧
    (g.selectNodesByLayerData layer).2 = (g.selectNodesByLayer layer).2 ∧
    ∀ n a, (n, a) ∈ (g.selectNodesByLayerData layer).1 → g.nodeAttrs n = some a := by
  refine ⟨rfl, rfl, ?_⟩
  intro n a h
  rw [← mem_nodes_iff hr.inv.wf]
  have : ∀ (f : NodeId × Attrs → Except PyErr Bool) (xs : List (NodeId × Attrs)),
      ∀ y ∈ (Gen.collect (fun p => yieldIf p (f p)) xs).1, y ∈ xs := by
    intro f xs
    induction xs with
    | nil => intro y hy; simp [Gen.collect] at hy
    | cons x xs ih =>
      intro y hy
      unfold Gen.collect at hy
      cases hfx : f x with
      | error e => simp [hfx] at hy
      | ok b =>
        cases b with
        | true =>
          simp only [hfx, yieldIf_true, List.mem_cons] at hy
          rcases hy with rfl | hy
          · simp
          · exact List.mem_cons_of_mem _ (ih y hy)
        | false =>
          simp only [hfx, yieldIf_false] at hy
          exact List.mem_cons_of_mem _ (ih y hy)
  exact this _ _ _ h

/-- what an attribute filter asks of an attribute dict: possess the attribute, and have (one of) the given string value(s);
a value filter without an attribute matches nothing -/
def AttribMatches (attrib : Option String) (value : Filter) (a : Attrs) : Prop :=
  (∀ k, attrib = some k → ∃ v, find a k = some v) ∧
  match value with
  | .any => True
  | .one v => ∃ k, attrib = some k ∧ find a k = some (.atom (.str v))
  | .many vs => ∃ v ∈ vs, ∃ k, attrib = some k ∧ find a k = some (.atom (.str v))

theorem attrEqStr_iff (a : Attrs) (attrib : Option String) (v : String) :
    attrEqStr a attrib v = true ↔ ∃ k, attrib = some k ∧ find a k = some (.atom (.str v)) := by
  cases attrib <;> simp [attrEqStr]

theorem attributeCondition_iff (attrib : Option String) (value : Filter) (a : Attrs) :
    attributeCondition attrib value a = true ↔ AttribMatches attrib value a := by
  unfold attributeCondition AttribMatches
  rw [Bool.and_eq_true]
  apply and_congr
  · cases attrib with
    | none => simp
    | some k => simp [mem_keys_iff]
  · cases value with
    | any => simp
    | one v => simp [attrEqStr_iff]
    | many vs => simp [attrEqStr_iff]

/-- **C09**.  In any reachable graph, `select_nodes_by_attribute(g, attribute, value)` yields exactly once, in graph order, each node that
possesses the attribute and has (one of) the given value(s), and no other node. -/
theorem c09_select_nodes_by_attribute (g : DG) (hr : Reachable g) (attrib : Option String) (value : Filter) :
    ∃ ids, g.selectNodesByAttribute attrib value = (ids, none) ∧ ids.Nodup ∧ ids.Sublist (keys g.nodes) ∧
      ∀ n, n ∈ ids ↔ ∃ a, g.nodeAttrs n = some a ∧ AttribMatches attrib value a := by
  have wf := hr.inv.wf
  have hsel : g.selectNodesByAttribute attrib value =
      ((g.nodes.filter (fun p => attributeCondition attrib value p.2)).map Prod.fst, none) := by
    simp only [selectNodesByAttribute, selectNodesByAttributeData, Gen.map]
    rw [Gen.collect_yieldIf (xs := g.nodes) (f := fun p => .ok (attributeCondition attrib value p.2))
      (c := fun p => attributeCondition attrib value p.2) (fun _ _ => rfl)]
  refine ⟨_, hsel, wf.nodesNodup.sublist (sublist_keys_of_filter _ _), sublist_keys_of_filter _ _, ?_⟩
  intro n
  simp only [List.mem_map, List.mem_filter, attributeCondition_iff]
  constructor
  · rintro ⟨⟨m, a⟩, ⟨h1, h2⟩, rfl⟩
    exact ⟨a, (mem_nodes_iff wf _ _).1 h1, h2⟩
  · rintro ⟨a, h1, h2⟩
    exact ⟨(n, a), ⟨(mem_nodes_iff wf _ _).2 h1, h2⟩, rfl⟩

/-- `m` is an out-neighbour of `n` -/
def OutNeighbor (g : DG) (n m : NodeId) : Prop := ∃ k, g.HasEdge n m k

theorem kd?_isSome_iff {g : DG} (wf : WF g) (n m : NodeId) : (∃ kd, g.kd? n m = some kd) ↔ OutNeighbor g n m := by
  unfold OutNeighbor HasEdge edgeAttrs
  constructor
  · rintro ⟨kd, h⟩
    rw [h]
    have hne := wf.kdNonempty _ _ _ h
    match hkd : kd with
    | [] => exact absurd rfl hne
    | (k, a) :: _ => exact ⟨k, by simp⟩
  · rintro ⟨k, h⟩
    cases hk : g.kd? n m with
    | none => rw [hk] at h; simp at h
    | some kd => exact ⟨kd, rfl⟩

theorem neighbors_spec {g : DG} (wf : WF g) {n : NodeId} (hn : g.HasNode n) :
    ∃ nb, g.neighbors n = .ok nb ∧ nb.Nodup ∧ ∀ m, m ∈ nb ↔ OutNeighbor g n m := by
  have hn' : n ∈ keys g.adj := by rw [wf.adjKeys]; exact hn
  obtain ⟨d, hd⟩ := (mem_keys_iff _ _).1 hn'
  refine ⟨keys d, by simp [neighbors, hd], wf.nbrsNodup _ _ hd, ?_⟩
  intro m
  rw [← kd?_isSome_iff wf, mem_keys_iff]
  unfold kd?
  rw [hd]; simp

theorem selectNeighborsByLayer_wf {g : DG} (wf : WF g) (hl : AllLayered g) (n : NodeId) (hn : g.HasNode n)
    (layer : Filter) (hlayer : layer ≠ .any) :
    ∃ ids, g.selectNeighborsByLayer n layer = (ids, none) ∧ ids.Nodup ∧
      ∀ m, m ∈ ids ↔ OutNeighbor g n m ∧ Filter.Layers layer (fun l => g.NodeLayer m (.str l)) := by
  obtain ⟨nb, hnb, hnd, hmem⟩ := neighbors_spec wf hn
  let c : NodeId → Bool := fun m => match (g.nodeAttrs m).bind (find · "layers") with
    | some (.set xs) => layerTest layer xs
    | _ => false
  have hnode : ∀ m ∈ nb, ∃ a xs, g.nodeAttrs m = some a ∧ find a "layers" = some (.set xs) := by
    intro m hm
    obtain ⟨kd, hkd⟩ := (kd?_isSome_iff wf n m).2 ((hmem m).1 hm)
    obtain ⟨a, ha⟩ := (hasNode_iff g m).1 (wf.target _ _ _ hkd)
    obtain ⟨xs, hx, _⟩ := hl m a ha
    exact ⟨a, xs, ha, hx⟩
  have hc : ∀ m ∈ nb, g.neighborLayerCondition layer m = .ok (c m) := by
    intro m hm
    obtain ⟨a, xs, ha, hx⟩ := hnode m hm
    simp only [c, ha, Option.bind_some, hx]
    have he : g.nodeLayersEntry m = .ok (.set xs) := by
      unfold nodeAttrs at ha
      simp [nodeLayersEntry, ha, layersEntry, hx]
    cases layer with
    | any => exact absurd rfl hlayer
    | one l => simp [neighborLayerCondition, he, bind, Except.bind, pyIn, layerTest]
    | many ls => simp [neighborLayerCondition, he, bind, Except.bind, pyAnyIn_set, layerTest]
  refine ⟨nb.filter c, ?_, hnd.sublist List.filter_sublist, ?_⟩
  · simp only [selectNeighborsByLayer, hnb]
    exact Gen.collect_yieldIf hc
  · intro m
    rw [List.mem_filter, ← hmem]
    apply and_congr_right
    intro hm
    obtain ⟨a, xs, ha, hx⟩ := hnode m hm
    have hcong : ∀ l, g.NodeLayer m (.str l) ↔ AttrsLayer a (.str l) := by
      intro l; unfold NodeLayer; rw [ha]; simp
    simp only [c, ha, Option.bind_some, hx]
    rw [layerTest_iff layer a xs hx]
    cases layer <;> simp [Filter.Layers, hcong]

/-- **C10 (layers)**.  For a node of a reachable graph whose nodes carry layer sets, `select_neighbors_by_layer(g, n, layer)` yields
exactly once each out-neighbour of `n` that is in (one of) the given layer(s), and no other node. -/
theorem c10_select_neighbors_by_layer (g : DG) (hr : Reachable g) (hl : AllLayered g) (n : NodeId) (hn : g.HasNode n)
    (layer : Filter) (hlayer : layer ≠ .any) :
    ∃ ids, g.selectNeighborsByLayer n layer = (ids, none) ∧ ids.Nodup ∧
      ∀ m, m ∈ ids ↔ OutNeighbor g n m ∧ Filter.Layers layer (fun l => g.NodeLayer m (.str l)) :=
  selectNeighborsByLayer_wf hr.inv.wf hl n hn layer hlayer

/-- what an edge attribute filter asks of the parallel edges from `n` to `m` -/
def SomeEdgeMatches (g : DG) (n m : NodeId) (attrib : Option String) (value : Filter) : Prop :=
  (∀ x, attrib = some x → ∃ k v, g.edgeAttr n m k x = some v) ∧
  match value with
  | .any => True
  | .one v => ∃ k x, attrib = some x ∧ g.edgeAttr n m k x = some (.atom (.str v))
  | .many vs => ∃ v ∈ vs, ∃ k x, attrib = some x ∧ g.edgeAttr n m k x = some (.atom (.str v))

/-- **C10 (edge attributes)**.  For a node of a reachable graph, `select_neighbors_by_edge_attribute(g, n, attribute, value)` yields exactly once
each out-neighbour with some parallel edge carrying the attribute and some parallel edge with (one of) the given value(s). -/
theorem c10_select_neighbors_by_edge_attribute (g : DG) (hr : Reachable g) (n : NodeId) (hn : g.HasNode n)
    (attrib : Option String) (value : Filter) :
    ∃ ids, g.selectNeighborsByEdgeAttribute n attrib value = (ids, none) ∧ ids.Nodup ∧
      ∀ m, m ∈ ids ↔ OutNeighbor g n m ∧ SomeEdgeMatches g n m attrib value := by
  have wf := hr.inv.wf
  obtain ⟨nb, hnb, hnd, hmem⟩ := neighbors_spec wf hn
  refine ⟨nb.filter (fun m => edgeAttributeCondition attrib value (vals (g.keyDict n m))), ?_, hnd.sublist List.filter_sublist, ?_⟩
  · simp only [selectNeighborsByEdgeAttribute, hnb]
    exact Gen.collect_yieldIf (fun _ _ => rfl)
  · intro m
    rw [List.mem_filter, ← hmem]
    apply and_congr_right
    intro hm
    obtain ⟨kd, hkd⟩ := (kd?_isSome_iff wf n m).2 ((hmem m).1 hm)
    have hval : vals (g.keyDict n m) = vals kd := by
      unfold kd? at hkd
      unfold keyDict
      cases hf : find g.adj n with
      | none => rw [hf] at hkd; simp at hkd
      | some d => rw [hf] at hkd; simp only [Option.bind_some] at hkd; simp [hkd]
    have hex : ∀ P : Attrs → Prop, (∃ e ∈ vals kd, P e) ↔ ∃ k a, g.edgeAttrs n m k = some a ∧ P a := by
      intro P
      have nd := wf.kdNodup _ _ _ hkd
      unfold edgeAttrs
      rw [hkd]
      simp only [Option.bind_some, ← mem_iff_find nd, vals, List.mem_map]
      constructor
      · rintro ⟨e, ⟨⟨k, a⟩, hp, rfl⟩, hP⟩; exact ⟨k, a, hp, hP⟩
      · rintro ⟨k, a, hp, hP⟩; exact ⟨a, ⟨(k, a), hp, rfl⟩, hP⟩
    have hea : ∀ k x v, g.edgeAttr n m k x = some v ↔ ∃ a, g.edgeAttrs n m k = some a ∧ find a x = some v := by
      intro k x v; unfold edgeAttr; cases g.edgeAttrs n m k <;> simp
    rw [hval]
    unfold edgeAttributeCondition SomeEdgeMatches
    rw [Bool.and_eq_true]
    apply and_congr
    · cases attrib with
      | none => simp
      | some x =>
        simp only [List.any_eq_true, has_iff, mem_keys_iff, Option.some.injEq, forall_eq']
        rw [hex (fun e => ∃ v, find e x = some v)]
        constructor
        · rintro ⟨k, a, h1, v, h2⟩; exact ⟨k, v, (hea _ _ _).2 ⟨a, h1, h2⟩⟩
        · rintro ⟨k, v, h⟩; obtain ⟨a, h1, h2⟩ := (hea _ _ _).1 h; exact ⟨k, a, h1, v, h2⟩
    · cases value with
      | any => simp
      | one v =>
        simp only [List.any_eq_true, attrEqStr_iff]
        rw [hex (fun e => ∃ k, attrib = some k ∧ find e k = some (.atom (.str v)))]
        constructor
        · rintro ⟨k, a, h1, x, hx, h2⟩; exact ⟨k, x, hx, (hea _ _ _).2 ⟨a, h1, h2⟩⟩
        · rintro ⟨k, x, hx, h⟩; obtain ⟨a, h1, h2⟩ := (hea _ _ _).1 h; exact ⟨k, a, h1, x, hx, h2⟩
      | many vs =>
        simp only [List.any_eq_true, attrEqStr_iff]
        rw [hex (fun e => ∃ v ∈ vs, ∃ k, attrib = some k ∧ find e k = some (.atom (.str v)))]
        constructor
        · rintro ⟨k, a, h1, v, hv, x, hx, h2⟩; exact ⟨v, hv, k, x, hx, (hea _ _ _).2 ⟨a, h1, h2⟩⟩
        · rintro ⟨v, hv, k, x, hx, h⟩; obtain ⟨a, h1, h2⟩ := (hea _ _ _).1 h; exact ⟨k, a, h1, v, hv, x, hx, h2⟩

/-- the two tests of C10 are independent: an attribute filter with a value needs the value on *some* parallel edge -/
example :
    let g := (init "" "dg" none).run
      [.addEdge (.int 1) (.int 2) (.set [.str "x"]) none .none [("w", .atom (.str "a"))],
       .addEdge (.int 1) (.int 2) (.set [.str "y"]) none .none [("w", .atom (.str "b"))],
       .addEdge (.int 1) (.int 3) (.set [.str "y"]) none .none [], .addNode (.int 3) (.set [.str "k"]) .none [("w", .atom (.str "b"))]]
    Reachable g ∧ g.HasNode (.int 1) ∧ AllLayered g ∧
    g.selectNeighborsByEdgeAttribute (.int 1) (some "w") (.one "b") = ([.int 2], none) ∧
    g.selectNeighborsByLayer (.int 1) (.many ["k", "q"]) = ([.int 3], none) ∧
    g.selectNodesByLayer (.one "dg") = ([.str "dg:root_node", .int 1, .int 2, .int 3], none) ∧
    g.selectNodesByAttribute (some "w") (.many ["a", "b"]) = ([.int 3], none) := by
  refine ⟨⟨"", "dg", none, _, ?_, rfl⟩, by decide, ?_, by decide, by decide, by decide, by decide⟩
  · simp [Op.Valid, AttrArg.Valid, keys]
  · intro n a h
    refine c01_every_node_has_layers_partial _ _ _ _ ?_ ?_ n a h
    · simp [Op.Valid, AttrArg.Valid, keys]
    · simp [Op.SafeLayers]

end DG
end Dg
