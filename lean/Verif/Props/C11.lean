import Verif.Lemmas.Edges
import Verif.Props.C08

/-! C11: edge selection is exact.  C12: layer inventory is exact. -/

namespace Dg
open Dict
namespace DG

/-- `g.edges` lists each edge of a reachable graph exactly once, with its attributes (the meaning of "all edges"). -/
theorem c11_edges_lists_every_edge_once (g : DG) (hr : Reachable g) :
    (g.edges.map Edge.triple).Nodup ∧ ∀ u v k a, (u, v, k, a) ∈ g.edges ↔ g.edgeAttrs u v k = some a :=
  ⟨edges_triple_nodup hr.inv.wf, mem_edges_iff hr.inv.wf⟩

/-- exactness of an edge selection: each edge with property `P` exactly once, in edge order, and no other edge -/
def SelectsExactly (g : DG) (r : Gen Edge) (P : Attrs → Prop) : Prop :=
  ∃ es, r = (es, none) ∧ (es.map Edge.triple).Nodup ∧ es.Sublist g.edges ∧
    ∀ u v k a, (u, v, k, a) ∈ es ↔ g.edgeAttrs u v k = some a ∧ P a

theorem selectsExactly_filter {g : DG} (wf : WF g) {conds : List Cond} {c : Attrs → Bool} {P : Attrs → Prop}
    (h : ∀ u v k a, g.edgeAttrs u v k = some a → allConds a conds = .ok (c a) ∧ (c a = true ↔ P a)) :
    g.selectEdges conds = (g.edges.filter (fun e => c e.2.2.2), none) ∧ SelectsExactly g (g.selectEdges conds) P := by
  have h1 : g.selectEdges conds = (g.edges.filter (fun e => c e.2.2.2), none) := by
    unfold selectEdges
    refine Gen.collect_yieldIf (xs := g.edges) (f := fun e => allConds e.2.2.2 conds) (c := fun e => c e.2.2.2) ?_
    rintro ⟨u, v, k, a⟩ he
    exact (h u v k a ((mem_edges_iff wf _ _ _ _).1 he)).1
  refine ⟨h1, ⟨_, h1, ?_, List.filter_sublist, ?_⟩⟩
  · exact (edges_triple_nodup wf).sublist (List.Sublist.map _ List.filter_sublist)
  · intro u v k a
    rw [List.mem_filter, mem_edges_iff wf]
    apply and_congr_right
    intro he
    exact (h u v k a he).2

theorem selectsExactly_all {g : DG} (wf : WF g) : SelectsExactly g (g.edges, none) (fun _ => True) :=
  ⟨_, rfl, edges_triple_nodup wf, List.Sublist.refl _, fun u v k a => by rw [mem_edges_iff wf]; simp⟩

theorem eval_plain {c : Cond} (h : ∀ s ∈ c.lits, plain s = true) : c.lits.all plain = true := by
  rw [List.all_eq_true]; exact h

/-- **C11 (attribute)**.  In any reachable graph, `select_edges_by_attribute(g, attribute)` yields exactly the edges that have the attribute,
and `select_edges_by_attribute(g, attribute, 'value')` exactly those with that value, each once; without
attribute it yields all edges.  (Filter strings of printable ASCII without quote/backslash: the code splices them into a
Python expression.) -/
theorem c11_select_edges_by_attribute (g : DG) (hr : Reachable g) (attrib value : Option String)
    (hp : ∀ s, attrib = some s ∨ value = some s → plain s = true) :
    SelectsExactly g (g.selectEdgesByAttribute attrib (match value with | none => .any | some v => .one v))
      (fun a => ∀ k, attrib = some k → k ≠ "" →
        (∃ v, find a k = some v) ∧ ∀ s, value = some s → find a k = some (.atom (.str s))) := by
  have wf := hr.inv.wf
  cases attrib with
  | none =>
    simpa [selectEdgesByAttribute] using selectsExactly_all wf
  | some k =>
    by_cases hk : k = ""
    · subst hk
      simpa [selectEdgesByAttribute] using selectsExactly_all wf
    · have pk := hp k (Or.inl rfl)
      cases value with
      | none =>
        simp only [selectEdgesByAttribute, hk, if_false]
        refine (selectsExactly_filter (c := fun a => has a k) wf ?_).2
        intro u v key a _
        refine ⟨?_, ?_⟩
        · simp only [allConds, Cond.eval, Cond.lits, List.all_cons, List.all_nil, pk, Bool.and_self, if_true, bind, Except.bind]
          cases has a k <;> rfl
        · rw [has_iff, mem_keys_iff]; simp [hk]
      | some s =>
        have ps := hp s (Or.inr rfl)
        simp only [selectEdgesByAttribute, hk, if_false]
        refine (selectsExactly_filter (c := fun a => decide (find a k = some (.atom (.str s)))) wf ?_).2
        intro u v key a _
        refine ⟨?_, ?_⟩
        · simp only [allConds, Cond.eval, Cond.lits, List.all_cons, List.all_nil, pk, ps, Bool.and_self, if_true, bind, Except.bind, has]
          cases hf : find a k with
          | none => simp
          | some x =>
            by_cases hx : x = .atom (.str s)
            · simp [hx]
            · simp [hx]
        · simp only [decide_eq_true_eq, Option.some.injEq, forall_eq']
          constructor
          · intro h _; exact ⟨⟨_, h⟩, h⟩
          · intro h; exact (h hk).2

theorem selectEdges_values {g : DG} (wf : WF g) (k : String) (vs : List String) (hk : k ≠ "")
    (hp : plain k = true) (hpv : ∀ s ∈ vs, plain s = true) :
    ∃ es, g.selectEdgesByAttribute (some k) (.many vs) = (es, none) ∧
      (∀ u v key a, (u, v, key, a) ∈ es → g.edgeAttrs u v key = some a ∧ ∃ s ∈ vs, find a k = some (.atom (.str s))) ∧
      (∀ u v key a s, g.edgeAttrs u v key = some a → find a k = some (.atom (.str s)) → es.count (u, v, key, a) = vs.count s) := by
  have hsel : ∀ s ∈ vs, g.selectEdges [.hasKey k, .attrIs k s] =
      (g.edges.filter (fun e => decide (find e.2.2.2 k = some (.atom (.str s)))), none) := by
    intro s hs
    refine (selectsExactly_filter (c := fun a => decide (find a k = some (.atom (.str s))))
      (P := fun a => find a k = some (.atom (.str s))) wf ?_).1
    intro u v key a _
    refine ⟨?_, by simp⟩
    simp only [allConds, Cond.eval, Cond.lits, List.all_cons, List.all_nil, hp, hpv s hs, Bool.and_self, if_true, bind, Except.bind, has]
    cases hf : find a k with
    | none => simp
    | some x =>
      by_cases hx : x = .atom (.str s)
      · simp [hx]
      · simp [hx]
  have hchain : ∀ ws : List String, (∀ s ∈ ws, s ∈ vs) →
      Gen.chain (ws.map (fun v => g.selectEdges [.hasKey k, .attrIs k v])) =
      (ws.flatMap (fun s => g.edges.filter (fun e => decide (find e.2.2.2 k = some (.atom (.str s))))), none) := by
    intro ws
    induction ws with
    | nil => intro _; rfl
    | cons w ws ih =>
      intro h
      rw [List.map_cons, hsel w (h w (by simp)), Gen.chain, ih (fun s hs => h s (List.mem_cons_of_mem _ hs))]
      simp
  refine ⟨_, by simp only [selectEdgesByAttribute, hk, if_false]; exact hchain vs (fun _ h => h), ?_, ?_⟩
  · intro u v key a he
    obtain ⟨s, hs, he⟩ := List.mem_flatMap.1 he
    rw [List.mem_filter] at he
    exact ⟨(mem_edges_iff wf _ _ _ _).1 he.1, s, hs, by simpa using he.2⟩
  · intro u v key a s ha hs
    have hcount : ∀ w, (g.edges.filter (fun e => decide (find e.2.2.2 k = some (.atom (.str w))))).count (u, v, key, a) =
        if s = w then 1 else 0 := by
      intro w
      by_cases hw : s = w
      · subst hw
        rw [if_pos rfl, List.count_filter (by simpa using hs)]
        exact List.count_eq_one_of_mem (edges_nodup wf) ((mem_edges_iff wf _ _ _ _).2 ha)
      · rw [if_neg hw, List.count_eq_zero]
        intro hm
        rw [List.mem_filter] at hm
        have := hm.2
        simp only [decide_eq_true_eq] at this
        rw [hs] at this
        simp at this
        exact hw this
    clear hsel hchain hpv
    induction vs with
    | nil => simp
    | cons w ws ih =>
      rw [List.flatMap_cons, List.count_append, hcount, ih, List.count_cons]
      by_cases hw : s = w
      · subst hw; simp [Nat.add_comm]
      · have : (w == s) = false := by simp; exact fun h => hw (Eq.symm h)
        simp [hw, this]

/-- **C11 (collection of values)**.  With a list of values, each edge having the attribute is yielded once per occurrence of its value in the
list, and nothing else is yielded. -/
theorem c11_select_edges_by_attribute_values (g : DG) (hr : Reachable g) (k : String) (vs : List String) (hk : k ≠ "")
    (hp : plain k = true) (hpv : ∀ s ∈ vs, plain s = true) :
    ∃ es, g.selectEdgesByAttribute (some k) (.many vs) = (es, none) ∧
      (∀ u v key a, (u, v, key, a) ∈ es → g.edgeAttrs u v key = some a ∧ ∃ s ∈ vs, find a k = some (.atom (.str s))) ∧
      (∀ u v key a s, g.edgeAttrs u v key = some a → find a k = some (.atom (.str s)) → es.count (u, v, key, a) = vs.count s) :=
  selectEdges_values hr.inv.wf k vs hk hp hpv

/-- selection by layer and edge type, from the invariant -/
theorem selectEdgesBy_exact {g : DG} (hi : Inv g) (layer edgeType : Option String)
    (hp : ∀ s, layer = some s ∨ edgeType = some s → plain s = true)
    (het : edgeType ≠ none → ∀ u v k a, g.edgeAttrs u v k = some a → ∃ x, find a "edge_type" = some x) :
    SelectsExactly g (g.selectEdgesBy layer edgeType)
      (fun a => (∀ l, layer = some l → AttrsLayer a (.str l)) ∧
        ∀ t, edgeType = some t → find a "edge_type" = some (.atom (.str t))) := by
  have wf := hi.wf
  have pet : plain "edge_type" = true := by decide
  have hlay : ∀ (l : String) u v k a, plain l = true → g.edgeAttrs u v k = some a →
      ∃ b, Cond.eval (.inLayers l) a = .ok b ∧ (b = true ↔ AttrsLayer a (.str l)) := by
    intro l u v k a pl ha
    obtain ⟨xs, hx, _⟩ := hi.edges u v k a ha
    refine ⟨decide (Atom.str l ∈ xs), ?_, ?_⟩
    · simp [Cond.eval, Cond.lits, pl, layersEntry, hx, bind, Except.bind, pyIn]
    · unfold AttrsLayer; rw [hx]; simp
  have htyp : ∀ (t : String) u v k a, plain t = true → edgeType ≠ none → g.edgeAttrs u v k = some a →
      ∃ b, Cond.eval (.attrIs "edge_type" t) a = .ok b ∧ (b = true ↔ find a "edge_type" = some (.atom (.str t))) := by
    intro t u v k a pt hne ha
    obtain ⟨x, hx⟩ := het hne u v k a ha
    refine ⟨decide (x = .atom (.str t)), ?_, ?_⟩
    · simp [Cond.eval, Cond.lits, pt, pet, hx]
    · rw [hx]; simp
  -- a decidable version of the conjunction of the conditions
  have main : ∀ (conds : List Cond) (P : Attrs → Prop),
      (∀ u v k a, g.edgeAttrs u v k = some a → ∃ b, allConds a conds = .ok b ∧ (b = true ↔ P a)) →
      SelectsExactly g (g.selectEdges conds) P := by
    intro conds P h
    refine (selectsExactly_filter (c := fun a => match allConds a conds with | .ok b => b | .error _ => false) wf ?_).2
    intro u v k a ha
    obtain ⟨b, hb, hP⟩ := h u v k a ha
    simp only [hb]
    exact ⟨trivial, hP⟩
  have hcons : ∀ (c : Cond) (cs : List Cond) (a : Attrs) (b b' : Bool), Cond.eval c a = .ok b → allConds a cs = .ok b' →
      allConds a (c :: cs) = .ok (b && b') := by
    intro c cs a b b' h h'
    simp only [allConds, h, bind, Except.bind]
    cases b <;> simp [h']
  cases layer with
  | none =>
    cases edgeType with
    | none => simpa [selectEdgesBy] using selectsExactly_all wf
    | some t =>
      simp only [selectEdgesBy]
      refine main _ _ ?_
      intro u v k a ha
      obtain ⟨b, hb, hiff⟩ := htyp t u v k a (hp t (Or.inr rfl)) (by simp) ha
      exact ⟨b && true, hcons _ _ a b true hb rfl, by simpa using hiff⟩
  | some l =>
    cases edgeType with
    | none =>
      simp only [selectEdgesBy]
      refine main _ _ ?_
      intro u v k a ha
      obtain ⟨b, hb, hiff⟩ := hlay l u v k a (hp l (Or.inl rfl)) ha
      exact ⟨b && true, hcons _ _ a b true hb rfl, by simpa using hiff⟩
    | some t =>
      simp only [selectEdgesBy]
      refine main _ _ ?_
      intro u v k a ha
      obtain ⟨b, hb, hiff⟩ := hlay l u v k a (hp l (Or.inl rfl)) ha
      obtain ⟨b', hb', hiff'⟩ := htyp t u v k a (hp t (Or.inr rfl)) (by simp) ha
      refine ⟨b' && (b && true), hcons _ _ a b' _ hb' (hcons _ _ a b true hb rfl), ?_⟩
      simp [hiff, hiff', and_comm]

/-- **C11 (layer and edge type)**.  In any reachable graph whose edges all have an `edge_type` (needed only if that filter is used),
`select_edges_by(g, layer, edge_type)` yields exactly the edges of the layer with the edge type, each once. -/
theorem c11_select_edges_by (g : DG) (hr : Reachable g) (layer edgeType : Option String)
    (hp : ∀ s, layer = some s ∨ edgeType = some s → plain s = true)
    (het : edgeType ≠ none → ∀ u v k a, g.edgeAttrs u v k = some a → ∃ x, find a "edge_type" = some x) :
    SelectsExactly g (g.selectEdgesBy layer edgeType)
      (fun a => (∀ l, layer = some l → AttrsLayer a (.str l)) ∧
        ∀ t, edgeType = some t → find a "edge_type" = some (.atom (.str t))) :=
  selectEdgesBy_exact hr.inv layer edgeType hp het

/-- Without the `edge_type` hypothesis the claim is false: one edge without `edge_type` makes the selection raise KeyError. -/
theorem c11_fails_if_an_edge_lacks_edge_type :
    let g := (init "" "dg" none).run [.addEdge (.int 1) (.int 2) (.atom .none) none .none [],
      .addEdge (.int 2) (.int 3) (.atom .none) none .none [("edge_type", .atom (.str "dominates"))]]
    g.selectEdgesBy none (some "dominates") = ([], some .key) := by decide

example :
    let g := (init "" "dg" none).run [.addEdge (.int 1) (.int 2) (.set [.str "a"]) none .none [("edge_type", .atom (.str "points_to"))],
      .addEdge (.int 1) (.int 2) (.set [.str "b"]) none .none [("edge_type", .atom (.str "dominates"))],
      .addEdge (.int 2) (.int 3) (.set [.str "a"]) none .none [("edge_type", .atom (.str "dominates"))]]
    Reachable g ∧ (g.edges.all (fun e => has e.2.2.2 "edge_type")) = true ∧ plain "dominates" = true ∧
    (g.selectEdgesBy (some "a") (some "dominates")).1.map Edge.triple = [(.int 2, .int 3, .int 0)] ∧
    (g.selectEdgesByAttribute (some "edge_type") (.many ["dominates", "dominates"])).1.length = 4 := by
  refine ⟨⟨"", "dg", none, _, ?_, rfl⟩, by decide, by decide, by decide, by decide⟩
  simp [Op.Valid, AttrArg.Valid, keys]

/-! ### C12 -/

theorem mem_foldl_setAdd (ls acc : List Atom) (x : Atom) : x ∈ ls.foldl setAdd acc ↔ x ∈ acc ∨ x ∈ ls := by
  induction ls generalizing acc with
  | nil => simp
  | cons l ls ih => rw [List.foldl_cons, ih, mem_setAdd]; simp [or_assoc]

theorem collectLayers_spec (as : List Attrs) (acc : List Atom) (h : ∀ a ∈ as, ∃ xs, find a "layers" = some (.set xs)) :
    ∃ r, collectLayers as acc = .ok r ∧ ∀ l, l ∈ r ↔ l ∈ acc ∨ ∃ a ∈ as, AttrsLayer a l := by
  induction as generalizing acc with
  | nil => exact ⟨acc, rfl, by simp⟩
  | cons a as ih =>
    obtain ⟨xs, hx⟩ := h a (by simp)
    obtain ⟨r, hr, hmem⟩ := ih (xs.foldl setAdd acc) (fun b hb => h b (List.mem_cons_of_mem _ hb))
    refine ⟨r, by simp [collectLayers, layersEntry, hx, iterVal, bind, Except.bind, hr], ?_⟩
    intro l
    rw [hmem, mem_foldl_setAdd]
    have : AttrsLayer a l ↔ l ∈ xs := by unfold AttrsLayer; rw [hx]; simp
    simp [this, or_assoc]

/-- **C12**.  In any reachable graph whose nodes carry layer sets, `get_annotation_layers` returns exactly the layer names used by some node or some
edge (and get_node_/get_edge_annotation_layers exactly those of nodes/edges). -/
theorem c12_get_annotation_layers (g : DG) (hr : Reachable g) (hl : AllLayered g) :
    ∃ ns es all, g.getNodeAnnotationLayers = .ok ns ∧ g.getEdgeAnnotationLayers = .ok es ∧ g.getAnnotationLayers = .ok all ∧
      (∀ l, l ∈ ns ↔ ∃ n, g.NodeLayer n l) ∧ (∀ l, l ∈ es ↔ ∃ u v k, g.EdgeLayer u v k l) ∧
      (∀ l, l ∈ all ↔ (∃ n, g.NodeLayer n l) ∨ ∃ u v k, g.EdgeLayer u v k l) := by
  have wf := hr.inv.wf
  obtain ⟨ns, hns, hnm⟩ := collectLayers_spec (vals g.nodes) [] (by
    intro a ha
    obtain ⟨⟨n, a'⟩, hp, rfl⟩ := List.mem_map.1 ha
    obtain ⟨xs, hx, _⟩ := hl n a' ((mem_nodes_iff wf _ _).1 hp)
    exact ⟨xs, hx⟩)
  obtain ⟨es, hes, hem⟩ := collectLayers_spec (g.edges.map (fun e => e.2.2.2)) [] (by
    intro a ha
    obtain ⟨⟨u, v, k, a'⟩, hp, rfl⟩ := List.mem_map.1 ha
    obtain ⟨xs, hx, _⟩ := hr.inv.edges u v k a' ((mem_edges_iff wf _ _ _ _).1 hp)
    exact ⟨xs, hx⟩)
  have hn : ∀ l, l ∈ ns ↔ ∃ n, g.NodeLayer n l := by
    intro l
    rw [hnm]
    simp only [List.not_mem_nil, false_or, vals, List.mem_map]
    constructor
    · rintro ⟨a, ⟨⟨n, a'⟩, hp, rfl⟩, h⟩
      exact ⟨n, a', (mem_nodes_iff wf _ _).1 hp, h⟩
    · rintro ⟨n, a, ha, h⟩
      exact ⟨a, ⟨(n, a), (mem_nodes_iff wf _ _).2 ha, rfl⟩, h⟩
  have he : ∀ l, l ∈ es ↔ ∃ u v k, g.EdgeLayer u v k l := by
    intro l
    rw [hem]
    simp only [List.not_mem_nil, false_or, List.mem_map]
    constructor
    · rintro ⟨a, ⟨⟨u, v, k, a'⟩, hp, rfl⟩, h⟩
      exact ⟨u, v, k, a', (mem_edges_iff wf _ _ _ _).1 hp, h⟩
    · rintro ⟨u, v, k, a, ha, h⟩
      exact ⟨a, ⟨(u, v, k, a), (mem_edges_iff wf _ _ _ _).2 ha, rfl⟩, h⟩
  refine ⟨ns, es, setUnion ns es, hns, hes, ?_, hn, he, ?_⟩
  · unfold getAnnotationLayers
    simp only [getNodeAnnotationLayers, getEdgeAnnotationLayers, hns, hes, bind, Except.bind]
  · intro l; rw [mem_setUnion, hn, he]

/-- `t` is the part of `s` before its first colon (all of `s` if it has none) -/
def IsTopLevel (s t : String) : Prop :=
  ':' ∉ t.toList ∧ (s = t ∨ ∃ rest, s.toList = t.toList ++ ':' :: rest)

theorem isTopLevel_beforeColon (s : String) : IsTopLevel s (beforeColon s) := by
  unfold IsTopLevel beforeColon
  simp only [String.toList_ofList]
  constructor
  · intro h
    have := List.all_eq_true.1 (List.all_takeWhile (p := fun c => c != ':') (l := s.toList)) _ h
    simp at this
  · have hs := List.takeWhile_append_dropWhile (p := fun c => c != ':') (l := s.toList)
    cases hd : s.toList.dropWhile (fun c => c != ':') with
    | nil =>
      left
      rw [hd, List.append_nil] at hs
      rw [hs, String.ofList_toList]
    | cons c rest =>
      right
      have hc : c = ':' := by
        have := List.head?_dropWhile_not (fun c => c != ':') s.toList
        rw [hd] at this
        simpa using this
      refine ⟨rest, ?_⟩
      rw [hd, hc] at hs
      exact hs.symm

theorem mapM_topLevel (ls : List Atom) (h : ∀ x ∈ ls, ∃ s, x = Atom.str s) :
    ls.mapM topLevel = .ok (ls.map (fun x => match x with | .str s => .str (beforeColon s) | a => a)) := by
  induction ls with
  | nil => rfl
  | cons x ls ih =>
    obtain ⟨s, rfl⟩ := h x (by simp)
    rw [List.mapM_cons, ih (fun y hy => h y (List.mem_cons_of_mem _ hy))]
    simp [topLevel, bind, Except.bind, pure, Except.pure]

/-- **C12 (top level layers)**.  `get_top_level_layers` returns exactly the parts before the first ':' of the layer names in use. -/
theorem c12_get_top_level_layers (g : DG) (hr : Reachable g) (hl : AllLayered g) :
    ∃ r, g.getTopLevelLayers = .ok r ∧
      ∀ x, x ∈ r ↔ ∃ s t, x = .str t ∧ IsTopLevel s t ∧ ((∃ n, g.NodeLayer n (.str s)) ∨ ∃ u v k, g.EdgeLayer u v k (.str s)) := by
  obtain ⟨_, _, all, _, _, hall, _, _, hmem⟩ := c12_get_annotation_layers g hr hl
  have hstr : ∀ x ∈ all, ∃ s, x = Atom.str s := by
    intro x hx
    rcases (hmem x).1 hx with ⟨n, a, ha, xs, hxs, hm⟩ | ⟨u, v, k, a, ha, xs, hxs, hm⟩
    · obtain ⟨ys, hy, h⟩ := hl n a ha
      rw [hxs] at hy; injection hy with hy; injection hy with hy; subst hy
      exact h x hm
    · obtain ⟨ys, hy, h, _⟩ := hr.inv.edges u v k a ha
      rw [hxs] at hy; injection hy with hy; injection hy with hy; subst hy
      exact h x hm
  refine ⟨_, by simp only [getTopLevelLayers, hall, bind, Except.bind, mapM_topLevel all hstr]; rfl, ?_⟩
  intro x
  rw [mem_foldl_setAdd]
  simp only [List.not_mem_nil, false_or, List.mem_map]
  have huniq : ∀ s t, IsTopLevel s t → beforeColon s = t := by
    intro s t ⟨h1, h2⟩
    unfold beforeColon
    have hall : ∀ l : List Char, ':' ∉ l → l.takeWhile (fun c => c != ':') = l := by
      intro l hl
      induction l with
      | nil => rfl
      | cons c l ih =>
        simp only [List.mem_cons, not_or] at hl
        have hc : (c != ':') = true := by simp; exact fun h => hl.1 h.symm
        rw [List.takeWhile_cons, if_pos hc, ih hl.2]
    rcases h2 with rfl | ⟨rest, h2⟩
    · rw [hall _ h1, String.ofList_toList]
    · rw [h2, List.takeWhile_append_of_pos]
      · simp [String.ofList_toList]
      · intro c hc; simp; rintro rfl; exact h1 hc
  constructor
  · rintro ⟨y, hy, rfl⟩
    obtain ⟨s, rfl⟩ := hstr y hy
    exact ⟨s, beforeColon s, rfl, isTopLevel_beforeColon s, (hmem _).1 hy⟩
  · rintro ⟨s, t, rfl, ht, hs⟩
    exact ⟨.str s, (hmem _).2 hs, by simp [huniq s t ht]⟩

example :
    let g := (init "" "dg" none).run [.addEdge (.int 1) (.int 2) (.set [.str "tiger:sentence:root"]) none .none [],
      .addNode (.int 2) (.set [.str "rst"]) .none []]
    Reachable g ∧ AllLayered g ∧ g.getTopLevelLayers = .ok [.str "dg", .str "rst", .str "tiger"] := by
  refine ⟨⟨"", "dg", none, _, ?_, rfl⟩, ?_, by decide⟩
  · simp [Op.Valid, AttrArg.Valid, keys]
  · intro n a h
    refine c01_every_node_has_layers_partial _ _ _ _ ?_ ?_ n a h
    · simp [Op.Valid, AttrArg.Valid, keys]
    · simp [Op.SafeLayers]

end DG
end Dg
