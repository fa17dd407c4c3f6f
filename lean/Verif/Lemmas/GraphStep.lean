import Verif.Lemmas.SetAttr
import Verif.Lemmas.GraphEdges

namespace Dg
open Dict

namespace DG

/-! ### add_edges_from -/

/-- Python-dict validity of an edge tuple -/
def EdgeItem.Valid : EdgeItem → Prop
  | .e3 _ _ d => (keys d).Nodup
  | .e4 _ _ _ d => (keys d).Nodup
  | .badLen => True

/-- the call made by the loop body for one tuple -/
def addEdgeTuple (g : DG) (ad : Attrs) : EdgeItem → DG × Option PyErr
  | .e3 u v d => g.addEdgeItem ad u v none d
  | .e4 u v k d => g.addEdgeItem ad u v (some k) d
  | .badLen => (g, some .attribute)

theorem addEdgesLoop_cons (ad : Attrs) (g : DG) (it : EdgeItem) (its : List EdgeItem) :
    addEdgesLoop ad g (it :: its) =
      match g.addEdgeTuple ad it with
      | (g', none) => addEdgesLoop ad g' its
      | (g', some e) => (g', some e) := by
  cases it <;> rfl

theorem addEdgesLoop_induct (P : DG → Prop) (ad : Attrs) (its : List EdgeItem)
    (hstep : ∀ g it, it ∈ its → P g → P (g.addEdgeTuple ad it).1) :
    ∀ g, P g → P (addEdgesLoop ad g its).1 := by
  induction its with
  | nil => intro g h; exact h
  | cons it its ih =>
    intro g h
    rw [addEdgesLoop_cons]
    have h1 := hstep g it (by simp) h
    split
    · rename_i g' hg'
      rw [hg'] at h1
      exact ih (fun g it2 hm => hstep g it2 (List.mem_cons_of_mem _ hm)) g' h1
    · rename_i g' e hg'
      rw [hg'] at h1
      exact h1

theorem inv_addEdgeTuple {g : DG} (hi : Inv g) {ad : Attrs} (nda : (keys ad).Nodup) {it : EdgeItem} (hv : it.Valid) :
    Inv (g.addEdgeTuple ad it).1 := by
  cases it with
  | e3 u v d =>
    rcases addEdgeItem_view (g' := (g.addEdgeItem ad u v none d).1) (e := (g.addEdgeItem ad u v none d).2) hi nda hv rfl with
      ⟨_, h, _⟩ | ⟨_, k, a, layers, _, _, h, _⟩
    · simp only [addEdgeTuple]; rw [h]; exact hi
    · exact h
  | e4 u v k d =>
    rcases addEdgeItem_view (g' := (g.addEdgeItem ad u v (some k) d).1) (e := (g.addEdgeItem ad u v (some k) d).2) hi nda hv rfl with
      ⟨_, h, _⟩ | ⟨_, k, a, layers, _, _, h, _⟩
    · simp only [addEdgeTuple]; rw [h]; exact hi
    · exact h
  | badLen => exact hi

theorem inv_addEdgesLoop {g : DG} (hi : Inv g) {ad : Attrs} (nda : (keys ad).Nodup) {its : List EdgeItem}
    (hv : ∀ it ∈ its, it.Valid) : Inv (addEdgesLoop ad g its).1 :=
  addEdgesLoop_induct Inv ad its (fun _ it hm h => inv_addEdgeTuple h nda (hv it hm)) g hi

theorem addEdgesFrom_eq {g : DG} {its : List EdgeItem} {ad : AttrArg} {attr : Attrs} :
    (ad = .bad ∧ g.addEdgesFrom its ad attr = (g, some .attribute)) ∨
    ∃ A, g.addEdgesFrom its ad attr = addEdgesLoop A g its ∧
      (AttrArg.Valid ad → (keys attr).Nodup → (keys A).Nodup ∧ ∀ k, find A k = (find attr k).or (argFind ad k)) := by
  unfold addEdgesFrom
  cases ad with
  | none => exact Or.inr ⟨attr, rfl, fun _ h => ⟨h, by simp [argFind]⟩⟩
  | dict d => exact Or.inr ⟨upd d attr, rfl, fun h h2 => ⟨nodup_upd h _, fun k => by rw [find_upd _ h2]; simp [argFind]⟩⟩
  | bad => exact Or.inl ⟨rfl, rfl⟩

theorem inv_addEdgesFrom {g : DG} (hi : Inv g) {its : List EdgeItem} {ad : AttrArg} {attr : Attrs}
    (nda : (keys attr).Nodup) (vad : AttrArg.Valid ad) (hv : ∀ it ∈ its, it.Valid) :
    Inv (g.addEdgesFrom its ad attr).1 := by
  rcases addEdgesFrom_eq (g := g) (its := its) (ad := ad) (attr := attr) with ⟨_, h⟩ | ⟨A, h, hA⟩
  · rw [h]; exact hi
  · rw [h]; exact inv_addEdgesLoop hi (hA vad nda).1 hv

/-! ### add_layer -/

/-- effect of `add_layer` on one attribute dict -/
def withLayer (l : String) (a : Attrs) : Attrs :=
  match find a "layers" with
  | some (.set xs) => put a "layers" (.set (setAdd xs (.str l)))
  | _ => a

theorem addLayerEdges_eq (l : String) (kd : KeyDict)
    (h : ∀ p ∈ kd, ∃ xs, find p.2 "layers" = some (.set xs)) :
    addLayerEdges l kd = (kd.map (fun p => (p.1, withLayer l p.2)), none) := by
  induction kd with
  | nil => rfl
  | cons p kd ih =>
    obtain ⟨k, a⟩ := p
    obtain ⟨xs, hxs⟩ := h (k, a) (by simp)
    simp only at hxs
    have ih := ih (fun q hq => h q (List.mem_cons_of_mem _ hq))
    simp only [addLayerEdges, layerSet, hxs, ih, List.map_cons, withLayer]

theorem withLayer_spec {a : Attrs} {l : String} {xs : List Atom} (h : find a "layers" = some (.set xs)) :
    find (withLayer l a) "layers" = some (.set (setAdd xs (.str l))) ∧
    ∀ k, k ≠ "layers" → find (withLayer l a) k = find a k := by
  unfold withLayer
  rw [h]
  exact ⟨by simp, fun k hk => find_put_ne _ _ (Ne.symm hk)⟩

theorem nodup_withLayer {a : Attrs} {l : String} (nd : (keys a).Nodup) : (keys (withLayer l a)).Nodup := by
  unfold withLayer
  split
  · exact nodup_put nd _ _
  · exact nd

theorem layeredNE_withLayer {a : Attrs} {l : String} (h : LayeredNE a) : LayeredNE (withLayer l a) := by
  obtain ⟨xs, h1, h2, h3⟩ := h
  refine ⟨_, (withLayer_spec h1).1, ?_, ?_⟩
  · intro x hx
    rcases (mem_setAdd _ _ _).1 hx with hx | hx
    · exact h2 x hx
    · exact ⟨l, hx⟩
  · intro h0
    have : Atom.str l ∈ setAdd xs (.str l) := by simp
    rw [h0] at this; simp at this

/-- `add_layer((u, v), l)` on a graph with the invariant -/
theorem addLayer_edge {g : DG} (hi : Inv g) (u v : NodeId) (l : String) :
    (g.kd? u v = none ∧ g.addLayer (.edge u v) (.atom (.str l)) = (g, some .key)) ∨
    ∃ kd g', g.kd? u v = some kd ∧ g.addLayer (.edge u v) (.atom (.str l)) = (g', none) ∧ Inv g' ∧
      g'.nodes = g.nodes ∧
      ∀ u' v', g'.kd? u' v' = if u' = u ∧ v' = v then some (kd.map (fun p => (p.1, withLayer l p.2)))
        else g.kd? u' v' := by
  unfold addLayer
  simp only
  cases hk : g.kd? u v with
  | none => left; unfold kd? at hk; simp [hk]
  | some kd =>
    right
    have hk2 := hk
    unfold kd? at hk2
    rw [hk2]
    have ndkd := hi.wf.kdNodup _ _ _ hk
    have hall : ∀ p ∈ kd, ∃ xs, find p.2 "layers" = some (.set xs) := by
      intro p hp
      have : g.edgeAttrs u v p.1 = some p.2 := by
        unfold edgeAttrs; rw [hk]; exact mem_find ndkd hp
      obtain ⟨xs, hx, _⟩ := hi.edges _ _ _ _ this
      exact ⟨xs, hx⟩
    have hu := kd?_source hi.wf hk
    have hv := hi.wf.target _ _ _ hk
    simp only [addLayerEdges_eq l kd hall]
    have hkdf := kd?_putKeyDict (g := g) (u := u) (v := v) (by rw [hi.wf.adjKeys]; exact hu)
      (kd.map (fun p => (p.1, withLayer l p.2)))
    refine ⟨kd, _, rfl, rfl, ?_, by simp, hkdf⟩
    have hview : ∀ u' v' k' a, (g.putKeyDict u v (kd.map (fun p => (p.1, withLayer l p.2)))).edgeAttrs u' v' k' = some a →
        g.edgeAttrs u' v' k' = some a ∨ ∃ b, g.edgeAttrs u' v' k' = some b ∧ a = withLayer l b := by
      intro u' v' k' a ha
      unfold edgeAttrs at ha
      rw [hkdf] at ha
      split at ha
      · rename_i hh
        obtain ⟨rfl, rfl⟩ := hh
        simp only [Option.bind_some, find_mapVal, Option.map_eq_some_iff] at ha
        obtain ⟨b, hb, rfl⟩ := ha
        right
        exact ⟨b, by unfold edgeAttrs; rw [hk]; exact hb, rfl⟩
      · left; exact ha
    refine ⟨wf_putKeyDict hi.wf hu hv (by rw [keys_mapVal]; exact ndkd) ?_, ⟨?_, ?_⟩, ?_⟩
    · intro h0
      exact hi.wf.kdNonempty _ _ _ hk (by simpa using h0)
    · intro n a ha
      unfold nodeAttrs at ha
      rw [nodes_putKeyDict] at ha
      exact hi.attrs.node _ _ ha
    · intro u' v' k' a ha
      rcases hview _ _ _ _ ha with h | ⟨b, h, rfl⟩
      · exact hi.attrs.edge _ _ _ _ h
      · exact nodup_withLayer (hi.attrs.edge _ _ _ _ h)
    · intro u' v' k' a ha
      rcases hview _ _ _ _ ha with h | ⟨b, h, rfl⟩
      · exact hi.edges _ _ _ _ h
      · exact layeredNE_withLayer (hi.edges _ _ _ _ h)

theorem inv_addLayer {g : DG} (hi : Inv g) (e : Elem) (layer : Val) : Inv (g.addLayer e layer).1 := by
  cases e with
  | edge u v =>
    unfold addLayer
    split
    · rename_i l
      rcases addLayer_edge hi u v l with ⟨_, h⟩ | ⟨kd, g', _, h, h2, _⟩
      · have := congrArg Prod.fst h
        unfold addLayer at this
        simp only at this
        simp only
        rw [this]; exact hi
      · have := congrArg Prod.fst h
        unfold addLayer at this
        simp only at this
        simp only
        rw [this]; exact h2
    · exact hi
  | node n =>
    unfold addLayer
    split
    · simp only
      split
      · exact hi
      · rename_i attrs ha
        split
        · exact hi
        · rename_i xs hxs
          have hm : n ∈ keys g.nodes := (mem_keys_iff _ _).2 ⟨_, ha⟩
          refine inv_of_nodes hi (wf_setAttrs hi.wf hm _) (fun _ _ => rfl) ?_
          intro m a hma
          rw [nodeAttrs_putNodes] at hma
          split at hma
          · simp at hma; subst hma; exact nodup_put (hi.attrs.node _ _ ha) _ _
          · exact hi.attrs.node _ _ hma
    · exact hi

/-! ### remove_node -/

theorem removeNode_ok {g g' : DG} (hi : Inv g) {n : NodeId} (h : g.removeNode n = .ok g') :
    n ∈ keys g.nodes ∧ Inv g' ∧
    (∀ m, g'.nodeAttrs m = if m = n then none else g.nodeAttrs m) ∧
    (∀ u v, g'.kd? u v = if u = n ∨ v = n then none else g.kd? u v) := by
  unfold removeNode at h
  split at h
  · rename_i hn
    have hn := (has_iff _ _).1 hn
    injection h with h
    have hnode : ∀ m, g'.nodeAttrs m = if m = n then none else g.nodeAttrs m := by
      intro m
      rw [← h]
      unfold nodeAttrs
      simp only [find_del]
      by_cases hm : m = n
      · simp [hm]
      · simp [hm, Ne.symm hm]
    have hkd : ∀ u v, g'.kd? u v = if u = n ∨ v = n then none else g.kd? u v := by
      intro u v
      rw [← h]
      unfold kd?
      simp only
      rw [find_mapVal (del g.adj n) (fun nb => del nb n), find_del]
      by_cases hu : u = n
      · subst hu; simp
      · simp only [Ne.symm hu, if_false, hu, false_or]
        cases find g.adj u with
        | none => simp
        | some nb =>
          simp only [Option.map_some, Option.bind_some, find_del]
          by_cases hv : v = n
          · simp [hv]
          · simp [hv, Ne.symm hv]
    have hea : ∀ u v k a, g'.edgeAttrs u v k = some a → g.edgeAttrs u v k = some a := by
      intro u v k a ha
      unfold edgeAttrs at ha ⊢
      rw [hkd] at ha
      split at ha
      · simp at ha
      · exact ha
    refine ⟨hn, ⟨⟨?_, ?_, ?_, ?_, ?_, ?_⟩, ⟨?_, ?_⟩, ?_⟩, hnode, hkd⟩
    · rw [← h]; exact nodup_del hi.wf.nodesNodup _
    · rw [← h]; simp only; rw [keys_mapVal (del g.adj n) (fun nb => del nb n), keys_del, keys_del, hi.wf.adjKeys]
    · intro u nb hnb
      rw [← h] at hnb
      simp only at hnb
      rw [find_mapVal (del g.adj n) (fun nb => del nb n), Option.map_eq_some_iff] at hnb
      obtain ⟨nb0, h0, rfl⟩ := hnb
      rw [find_del] at h0
      split at h0
      · simp at h0
      · exact nodup_del (hi.wf.nbrsNodup _ _ h0) _
    · intro u v kd hk
      rw [hkd] at hk
      split at hk
      · simp at hk
      · exact hi.wf.kdNodup _ _ _ hk
    · intro u v kd hk
      rw [hkd] at hk
      split at hk
      · simp at hk
      · exact hi.wf.kdNonempty _ _ _ hk
    · intro u v kd hk
      rw [hkd] at hk
      split at hk
      · simp at hk
      · rename_i hne
        have := hi.wf.target _ _ _ hk
        rw [← h]
        simp only [keys_del, List.mem_filter, this, true_and, decide_eq_true_eq]
        exact fun h => hne (Or.inr h)
    · intro m a hm
      rw [hnode] at hm
      split at hm
      · simp at hm
      · exact hi.attrs.node _ _ hm
    · intro u v k a ha; exact hi.attrs.edge _ _ _ _ (hea _ _ _ _ ha)
    · intro u v k a ha; exact hi.edges _ _ _ _ (hea _ _ _ _ ha)
  · simp at h

/-! ### precedence -/

theorem inv_addPrecedenceEdge {g g' : DG} (hi : Inv g) {u v : NodeId} (h : g.addPrecedenceEdge u v = .ok g') : Inv g' :=
  inv_addEdge hi (by simp [keys]) (ad := .none) trivial h

theorem inv_addPrecedenceLoop (ts : List NodeId) : ∀ {g : DG}, Inv g → Inv (addPrecedenceLoop g ts).1 := by
  induction ts with
  | nil => intro g hi; exact hi
  | cons a ts ih =>
    intro g hi
    cases ts with
    | nil => exact hi
    | cons b ts =>
      unfold addPrecedenceLoop
      split
      · rename_i g' hg'
        exact ih (inv_addPrecedenceEdge hi hg')
      · exact hi

theorem inv_addPrecedence {g : DG} (hi : Inv g) : Inv g.addPrecedenceRelations.1 := by
  unfold addPrecedenceRelations
  split
  · split
    · rename_i g' hg'
      exact inv_addPrecedenceLoop _ (inv_addPrecedenceEdge hi hg')
    · exact hi
  · exact hi

/-! ### histories -/

/-- all dictionary arguments of the call are dictionaries (unique keys), and direct attribute assignments do not touch `layers` -/
def Op.Valid : Op → Prop
  | .addNode _ _ ad at' => AttrArg.Valid ad ∧ (keys at').Nodup
  | .addNodesFrom its at' => (keys at').Nodup ∧ ∀ it ∈ its, it.Valid
  | .addEdge _ _ _ _ ad at' => AttrArg.Valid ad ∧ (keys at').Nodup
  | .addEdgesFrom its ad at' => AttrArg.Valid ad ∧ (keys at').Nodup ∧ ∀ it ∈ its, it.Valid
  | .setAttr _ k _ => k ≠ "layers"
  | _ => True

theorem inv_lift {g : DG} (hi : Inv g) {r : Except PyErr DG} (h : ∀ g', r = .ok g' → Inv g') : Inv (g.lift r).1 := by
  cases r with
  | ok g' => exact h g' rfl
  | error e => exact hi

theorem inv_tokens {g : DG} (hi : Inv g) (ts : List NodeId) : Inv { g with tokens := ts } :=
  ⟨⟨hi.wf.nodesNodup, hi.wf.adjKeys, hi.wf.nbrsNodup, hi.wf.kdNodup, hi.wf.kdNonempty, hi.wf.target⟩,
   ⟨hi.attrs.node, hi.attrs.edge⟩, hi.edges⟩

theorem inv_sentences {g : DG} (hi : Inv g) (ts : List NodeId) : Inv { g with sentences := ts } :=
  ⟨⟨hi.wf.nodesNodup, hi.wf.adjKeys, hi.wf.nbrsNodup, hi.wf.kdNodup, hi.wf.kdNonempty, hi.wf.target⟩,
   ⟨hi.attrs.node, hi.attrs.edge⟩, hi.edges⟩

theorem inv_step {g : DG} (hi : Inv g) {op : Op} (hv : op.Valid) : Inv (g.step op).1 := by
  cases op with
  | addNode n l ad at' => exact inv_lift hi (fun g' h => inv_addNode hi hv.2 hv.1 h)
  | addNodesFrom its at' => exact inv_addNodesFrom hi hv.1 its
  | addEdge u v l k ad at' => exact inv_lift hi (fun g' h => inv_addEdge hi hv.2 hv.1 h)
  | addEdgesFrom its ad at' => exact inv_addEdgesFrom hi hv.2.1 hv.1 hv.2.2
  | addLayer e l => exact inv_addLayer hi e l
  | removeNode n => exact inv_lift hi (fun g' h => (removeNode_ok hi h).2.1)
  | addPrecedence => exact inv_addPrecedence hi
  | addOffsets ns => exact addOffsets_induct Inv ns (fun _ _ _ _ _ _ h1 h2 => inv_setAttr h1 h2) g hi
  | setAttr n k v => exact inv_lift hi (fun g' h => inv_setAttr hi h)
  | setTokens ts => exact inv_tokens hi ts
  | setSentences ts => exact inv_sentences hi ts
  | setName s => exact ⟨⟨hi.wf.nodesNodup, hi.wf.adjKeys, hi.wf.nbrsNodup, hi.wf.kdNodup, hi.wf.kdNonempty, hi.wf.target⟩, ⟨hi.attrs.node, hi.attrs.edge⟩, hi.edges⟩
  | setMergedRoots l => exact ⟨⟨hi.wf.nodesNodup, hi.wf.adjKeys, hi.wf.nbrsNodup, hi.wf.kdNodup, hi.wf.kdNonempty, hi.wf.target⟩, ⟨hi.attrs.node, hi.attrs.edge⟩, hi.edges⟩
  | setRenamed m => exact ⟨⟨hi.wf.nodesNodup, hi.wf.adjKeys, hi.wf.nbrsNodup, hi.wf.kdNodup, hi.wf.kdNonempty, hi.wf.target⟩, ⟨hi.attrs.node, hi.attrs.edge⟩, hi.edges⟩

theorem inv_run {g : DG} (hi : Inv g) {ops : List Op} (hv : ∀ op ∈ ops, op.Valid) : Inv (g.run ops) := by
  induction ops generalizing g with
  | nil => exact hi
  | cons op ops ih =>
    exact ih (inv_step hi (hv op (by simp))) (fun o ho => hv o (List.mem_cons_of_mem _ ho))

theorem init_eq (name ns : String) (root : Option NodeId) :
    init name ns root = {
      name := name, ns := ns, root := defaultRoot ns root
      nodes := [(defaultRoot ns root, [("layers", .set [.str ns]), ("metadata", .dict [])])]
      adj := [(defaultRoot ns root, [])]
      tokens := [], sentences := [], mergedRoots := none, renamed := none } := by
  simp [init, bare, newNode, put]

theorem kd?_init (name ns : String) (root : Option NodeId) (u v : NodeId) : (init name ns root).kd? u v = none := by
  rw [init_eq]
  unfold kd?
  by_cases h : defaultRoot ns root = u <;> simp [h]

theorem inv_init (name ns : String) (root : Option NodeId) : Inv (init name ns root) := by
  refine ⟨⟨?_, ?_, ?_, ?_, ?_, ?_⟩, ⟨?_, ?_⟩, ?_⟩
  · rw [init_eq]; simp [keys]
  · rw [init_eq]; simp [keys]
  · intro u nb h
    rw [init_eq] at h
    simp only [find_cons, find_nil] at h
    split at h <;> simp at h
    subst h; simp [keys]
  · intro u v kd h; rw [kd?_init] at h; simp at h
  · intro u v kd h; rw [kd?_init] at h; simp at h
  · intro u v kd h; rw [kd?_init] at h; simp at h
  · intro n a h
    rw [init_eq] at h
    unfold nodeAttrs at h
    simp only [find_cons, find_nil] at h
    split at h <;> simp at h
    subst h; simp [keys]
  · intro u v k a h; unfold edgeAttrs at h; rw [kd?_init] at h; simp at h
  · intro u v k a h; unfold edgeAttrs at h; rw [kd?_init] at h; simp at h

/-- A graph a client can obtain: constructor followed by any history of (valid) calls. -/
def Reachable (g : DG) : Prop :=
  ∃ name ns root ops, (∀ op ∈ ops, Op.Valid op) ∧ g = (init name ns root).run ops

theorem Reachable.inv {g : DG} (h : Reachable g) : Inv g := by
  obtain ⟨name, ns, root, ops, hv, rfl⟩ := h
  exact inv_run (inv_init _ _ _) hv

theorem Inv.inv {g : DG} (h : Inv g) : Inv g := h

instance (ad : AttrArg) : Decidable (AttrArg.Valid ad) := by cases ad <;> (unfold AttrArg.Valid; infer_instance)
instance (it : NodeItem) : Decidable it.Valid := by cases it <;> (unfold NodeItem.Valid; infer_instance)
instance (it : EdgeItem) : Decidable it.Valid := by cases it <;> (unfold EdgeItem.Valid; infer_instance)
instance (op : Op) : Decidable op.Valid := by cases op <;> (unfold Op.Valid; infer_instance)

end DG
end Dg
