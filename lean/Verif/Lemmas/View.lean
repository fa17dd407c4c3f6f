import Verif.Model.RstGraph
import Verif.Lemmas.TigerDoc

/-! The content of a graph as a record of functions, and how the calls of a reader change it. -/

namespace Dg
open Dict
namespace DG

/-- the content of a graph -/
structure View where
  ns : String
  root : NodeId
  tokens : List NodeId
  sentences : List NodeId
  has : NodeId → Prop
  attr : NodeId → String → Option Val
  layer : NodeId → Atom → Prop
  edges : List EdgeSpec

/-- the graph has this content -/
structure Sees (g : DG) (w : View) : Prop where
  inv : Inv g
  layered : NodesLayered False g
  ns : g.ns = w.ns
  root : g.root = w.root
  tokens : g.tokens = w.tokens
  sentences : g.sentences = w.sentences
  nodes : ∀ m, g.HasNode m ↔ w.has m
  attr : ∀ m k, k ≠ "layers" → g.nodeAttr m k = w.attr m k
  layer : ∀ m l, g.NodeLayer m l ↔ w.layer m l
  edges : EdgesAre g w.edges

/-- nodes that do not exist have no attributes, layers and edges -/
structure View.Sane (w : View) : Prop where
  attr : ∀ m k, ¬ w.has m → w.attr m k = none
  layer : ∀ m l, w.layer m l → w.has m
  edges : ∀ e ∈ w.edges, w.has e.source ∧ w.has e.target

/-- `add_node(n, layers=set(ls), attr_dict=d)` -/
def View.addNode (w : View) (n : NodeId) (ls : List String) (d : Attrs) : View :=
  { w with has := fun m => w.has m ∨ m = n, attr := fun m k => if m = n then (find d k).or (w.attr m k) else w.attr m k, layer := fun m l => w.layer m l ∨ (m = n ∧ l ∈ ls.map Atom.str) }

/-- `node[n].update(d)` -/
def View.update (w : View) (n : NodeId) (d : Attrs) : View :=
  { w with attr := fun m k => if m = n then (find d k).or (w.attr m k) else w.attr m k }

/-- `node[n]['layers'] = set(ls)` -/
def View.setLayers (w : View) (n : NodeId) (ls : List String) : View :=
  { w with layer := fun m l => if m = n then l ∈ ls.map Atom.str else w.layer m l }

/-- `add_edge(u, v, layers=set(ls), attr_dict=d)` between existing nodes -/
def View.addEdge (w : View) (e : EdgeSpec) : View := { w with edges := w.edges ++ [e] }

/-- `remove_node(n)` for a node without edges -/
def View.remove (w : View) (n : NodeId) : View :=
  { w with has := fun m => w.has m ∧ m ≠ n, attr := fun m k => if m = n then none else w.attr m k, layer := fun m l => w.layer m l ∧ m ≠ n }

theorem Sees.sane {g : DG} {w : View} (h : Sees g w) (hs : ∀ m, w.attr m "layers" = none) : w.Sane := by
  refine ⟨?_, ?_, ?_⟩
  · intro m k hm
    by_cases hk : k = "layers"
    · rw [hk, hs]
    · rw [← h.attr m k hk]
      have hm' : ¬ g.HasNode m := fun x => hm ((h.nodes m).1 x)
      rw [hasNode_some] at hm'
      unfold nodeAttr
      cases ha : g.nodeAttrs m with
      | none => rfl
      | some a => exact (hm' ⟨a, ha⟩).elim
  · intro m l hl
    obtain ⟨a, ha, _⟩ := (h.layer m l).2 hl
    exact (h.nodes m).1 ((hasNode_some _ _).2 ⟨a, ha⟩)
  · intro e he
    obtain ⟨a, ⟨k, hk⟩, _⟩ := h.edges.complete e he
    obtain ⟨h1, h2⟩ := edge_ends h.inv.wf hk
    exact ⟨(h.nodes _).1 h1, (h.nodes _).1 h2⟩

theorem Sees.congr {g : DG} {w w' : View} (h : Sees g w) (h1 : w'.ns = w.ns) (h2 : w'.root = w.root) (h3 : w'.tokens = w.tokens) (h3' : w'.sentences = w.sentences) (h4 : ∀ m, w'.has m ↔ w.has m) (h5 : ∀ m k, k ≠ "layers" → w'.attr m k = w.attr m k)
    (h6 : ∀ m l, w'.layer m l ↔ w.layer m l) (h7 : List.Perm w.edges w'.edges) : Sees g w' :=
  ⟨h.inv, h.layered, h.ns.trans h1.symm, h.root.trans h2.symm, h.tokens.trans h3.symm, h.sentences.trans h3'.symm, fun m => (h.nodes m).trans (h4 m).symm, fun m k hk => (h.attr m k hk).trans (h5 m k hk).symm, fun m l => (h.layer m l).trans (h6 m l).symm, h.edges.perm h7⟩

/-- the calls of a script, one at a time -/
theorem Sees.node {g : DG} {w : View} (h : Sees g w) (n : NodeId) {ls : List String} {d : Attrs} (h1 : ls ≠ []) (h2 : (keys d).Nodup) : ∃ g', (Instr.node n ls d).exec g = .ok g' ∧ Sees g' (w.addNode n ls d) := by
  obtain ⟨g', e, b⟩ := built_node h.inv h.layered n h1 h2
  refine ⟨g', e, b.inv, b.layered, b.ns.trans h.ns, b.root.trans h.root, ?_, ?_, ?_, ?_, ?_, ?_⟩
  · rw [b.tokens]; simpa [Instr.newTokens, View.addNode, View.addEdge] using h.tokens
  · rw [b.sentences]; simpa [Instr.newSentences, View.addNode, View.addEdge] using h.sentences
  · intro m
    rw [b.nodes, h.nodes]
    simp [Instr.Mentions, View.addNode]
  · intro m k hk
    rw [b.attr m k hk, h.attr m k hk]
    simp only [lastWrite, Instr.write, Option.none_or, View.addNode]
    split
    · rfl
    · simp
  · intro m l
    rw [b.layer, h.layer]
    simp [Instr.GivesLayer, View.addNode, Implicit, Instr.IsEdge]
  · have := h.edges.built (es' := []) b (by simp) (by simp [Instr.isEdge])
    simpa [View.addNode] using this

theorem Sees.edge {g : DG} {w : View} (h : Sees g w) {u v : NodeId} (hu : w.has u) (hv : w.has v) {ls : List String} {d : Attrs} (h1 : ls ≠ []) (h2 : (keys d).Nodup) : ∃ g', (Instr.edge u v ls d).exec g = .ok g' ∧ Sees g' (w.addEdge ⟨u, v, ls, d⟩) := by
  obtain ⟨g', e, b⟩ := built_edge h.inv h.layered u v h1 h2
  refine ⟨g', e, b.inv, b.layered, b.ns.trans h.ns, b.root.trans h.root, ?_, ?_, ?_, ?_, ?_, ?_⟩
  · rw [b.tokens]; simpa [Instr.newTokens, View.addNode, View.addEdge] using h.tokens
  · rw [b.sentences]; simpa [Instr.newSentences, View.addNode, View.addEdge] using h.sentences
  · intro m
    rw [b.nodes, h.nodes]
    simp only [List.mem_singleton, exists_eq_left, Instr.Mentions, View.addEdge]
    constructor
    · rintro (h | rfl | rfl) <;> assumption
    · exact .inl
  · intro m k hk
    rw [b.attr m k hk, h.attr m k hk]
    simp [lastWrite, Instr.write, View.addEdge]
  · intro m l
    rw [b.layer, h.layer]
    simp only [List.mem_singleton, exists_eq_left, Instr.GivesLayer, View.addEdge, false_or]
    constructor
    · rintro (h' | ⟨h1, h2, _⟩)
      · exact h'
      · simp only [Implicit, Instr.Mentions, Instr.IsEdge, and_true, and_false, or_false] at h2
        rw [h.nodes] at h1
        rcases h2 with rfl | rfl
        · exact (h1 hu).elim
        · exact (h1 hv).elim
    · exact .inl
  · refine h.edges.built b ?_ ?_
    · intro u' v' ls' at'
      simp
    · intro u' v'
      simp only [List.countP_cons, List.countP_nil, Instr.isEdge, eq_comm]

theorem Sees.token {g : DG} {w : View} (h : Sees g w) (t : NodeId) : Sees { g with tokens := g.tokens ++ [t] } { w with tokens := w.tokens ++ [t] } := by
  refine ⟨inv_tokens h.inv _, h.layered, h.ns, h.root, ?_, h.sentences, h.nodes, h.attr, h.layer, ⟨h.edges.sound, h.edges.complete, h.edges.count⟩⟩
  show g.tokens ++ [t] = _
  rw [h.tokens]

theorem Sees.sentence {g : DG} {w : View} (h : Sees g w) (t : NodeId) : Sees { g with sentences := g.sentences ++ [t] } { w with sentences := w.sentences ++ [t] } := by
  refine ⟨inv_sentences h.inv _, h.layered, h.ns, h.root, h.tokens, ?_, h.nodes, h.attr, h.layer, ⟨h.edges.sound, h.edges.complete, h.edges.count⟩⟩
  show g.sentences ++ [t] = _
  rw [h.sentences]

theorem Sees.withRoot {g : DG} {w : View} (h : Sees g w) (r : NodeId) : Sees { g with root := r } { w with root := r } :=
  ⟨⟨⟨h.inv.wf.nodesNodup, h.inv.wf.adjKeys, h.inv.wf.nbrsNodup, h.inv.wf.kdNodup, h.inv.wf.kdNonempty, h.inv.wf.target⟩, ⟨h.inv.attrs.node, h.inv.attrs.edge⟩, h.inv.edges⟩,
    h.layered, h.ns, rfl, h.tokens, h.sentences, h.nodes, h.attr, h.layer, ⟨h.edges.sound, h.edges.complete, h.edges.count⟩⟩

theorem edgesAre_of_kd? {g g' : DG} {es : List EdgeSpec} (h : EdgesAre g es) (hk : ∀ u v, g'.kd? u v = g.kd? u v) : EdgesAre g' es := by
  have he := edgeAttrs_of_kd? hk
  refine ⟨?_, ?_, ?_⟩
  · rintro u v a ⟨k, hx⟩
    exact h.sound u v a ⟨k, (he u v k).symm.trans hx⟩
  · intro e hm
    obtain ⟨a, ⟨k, hx⟩, hma⟩ := h.complete e hm
    exact ⟨a, ⟨k, (he _ _ k).trans hx⟩, hma⟩
  · intro u v
    unfold edgeCount
    rw [hk]
    exact h.count u v

/-- replacing the attributes of a node -/
theorem Sees.putNode {g : DG} {w : View} (h : Sees g w) {n : NodeId} {a b : Attrs} (ha : find g.nodes n = some a) (hb : (keys b).Nodup) {xs : List Atom} (hx : find b "layers" = some (.set xs)) (hs : ∀ x ∈ xs, ∃ s, x = Atom.str s) :
    Sees { g with nodes := put g.nodes n b } { w with attr := fun m k => if m = n then find b k else w.attr m k, layer := fun m l => if m = n then l ∈ xs else w.layer m l } := by
  have hm : n ∈ keys g.nodes := (mem_keys_iff _ _).2 ⟨_, ha⟩
  refine ⟨?_, ?_, h.ns, h.root, h.tokens, h.sentences, ?_, ?_, ?_, edgesAre_of_kd? h.edges (fun _ _ => rfl)⟩
  · refine inv_of_nodes h.inv (wf_setAttrs h.inv.wf hm _) (fun _ _ => rfl) ?_
    intro m c hc
    rw [nodeAttrs_putNodes] at hc
    split at hc
    · cases hc; exact hb
    · exact h.inv.attrs.node _ _ hc
  · intro m c hc
    rw [nodeAttrs_putNodes] at hc
    split at hc
    · cases hc; exact ⟨xs, hx, hs, fun x => x.elim⟩
    · exact h.layered _ _ hc
  · intro m
    rw [hasNode_some, nodeAttrs_putNodes, ← h.nodes, hasNode_some]
    by_cases e : m = n
    · subst e
      rw [if_pos rfl]
      exact ⟨fun _ => ⟨a, ha⟩, fun _ => ⟨b, rfl⟩⟩
    · rw [if_neg e]
  · intro m k hk
    unfold nodeAttr
    rw [nodeAttrs_putNodes]
    dsimp only
    by_cases e : m = n
    · rw [if_pos e, if_pos e]; rfl
    · rw [if_neg e, if_neg e]
      exact h.attr m k hk
  · intro m l
    unfold NodeLayer
    rw [nodeAttrs_putNodes]
    dsimp only
    by_cases e : m = n
    · rw [if_pos e, if_pos e]
      unfold AttrsLayer
      constructor
      · rintro ⟨c, hc, ys, hy, hl⟩
        cases hc; cases hx.symm.trans hy; exact hl
      · intro hl
        exact ⟨b, rfl, xs, hx, hl⟩
    · rw [if_neg e, if_neg e]
      exact h.layer m l

theorem Sees.update {g : DG} {w : View} (h : Sees g w) {n : NodeId} (hn : w.has n) {d : Attrs} (hd : (keys d).Nodup) (hl : "layers" ∉ keys d) : ∃ g', g.updateNode n d = .ok g' ∧ Sees g' (w.update n d) := by
  obtain ⟨a, ha⟩ := (hasNode_some _ _).1 ((h.nodes n).2 hn)
  obtain ⟨xs, hx, hs, _⟩ := h.layered n a ha
  have ha' : find g.nodes n = some a := ha
  refine ⟨{ g with nodes := put g.nodes n (upd a d) }, by unfold updateNode; rw [ha'], ?_⟩
  have hx' : find (upd a d) "layers" = some (.set xs) := by
    rw [find_upd _ hd, (find_eq_none_iff _ _).2 hl]; simpa using hx
  have := h.putNode ha' (nodup_upd (h.inv.attrs.node _ _ ha) _) hx' hs
  refine this.congr rfl rfl rfl rfl (fun _ => Iff.rfl) ?_ ?_ (List.Perm.refl _)
  · intro m k hk
    show (if _ then _ else _) = (if _ then _ else _)
    by_cases e : m = n
    · subst e
      rw [if_pos rfl, if_pos rfl, find_upd _ hd, ← h.attr m k hk]
      unfold nodeAttr
      rw [ha]
      rfl
    · rw [if_neg e, if_neg e]
  · intro m l
    show w.layer m l ↔ (if _ then _ else _)
    by_cases e : m = n
    · subst e
      rw [if_pos rfl, ← h.layer]
      unfold NodeLayer AttrsLayer
      constructor
      · rintro ⟨c, hc, ys, hy, hl⟩
        cases ha.symm.trans hc; cases hx.symm.trans hy; exact hl
      · intro hl
        exact ⟨a, ha, xs, hx, hl⟩
    · rw [if_neg e]

/-- an update that also replaces the layers -/
theorem Sees.updateLayers {g : DG} {w : View} (h : Sees g w) {n : NodeId} (hn : w.has n) {d d' : Attrs} {ls : List String} (hd : (keys d').Nodup) (hd' : List.Perm d' (("layers", .set (ls.map Atom.str)) :: d)) : ∃ g', g.updateNode n d' = .ok g' ∧ Sees g' ((w.update n d).setLayers n ls) := by
  obtain ⟨a, ha⟩ := (hasNode_some _ _).1 ((h.nodes n).2 hn)
  have ha' : find g.nodes n = some a := ha
  refine ⟨{ g with nodes := put g.nodes n (upd a d') }, by unfold updateNode; rw [ha'], ?_⟩
  have hf : ∀ k v, find d' k = some v ↔ (k, v) ∈ d' := fun k v => ⟨fun h => find_some_mem h, fun h => mem_find hd h⟩
  have hdn : (keys (("layers", Val.set (ls.map Atom.str)) :: d)).Nodup := (hd'.map Prod.fst).nodup_iff.1 hd
  have hf2 : ∀ k, find d' k = find (("layers", Val.set (ls.map Atom.str)) :: d) k := by
    intro k
    apply Option.ext
    intro v
    rw [hf, hd'.mem_iff]
    exact ⟨fun h => mem_find hdn h, fun h => find_some_mem h⟩
  have hx' : find (upd a d') "layers" = some (.set (ls.map Atom.str)) := by
    rw [find_upd _ hd, hf2]; simp [find]
  have := h.putNode ha' (nodup_upd (h.inv.attrs.node _ _ ha) _) hx' (by intro x hx; obtain ⟨s, _, rfl⟩ := List.mem_map.1 hx; exact ⟨s, rfl⟩)
  refine this.congr rfl rfl rfl rfl (fun _ => Iff.rfl) ?_ ?_ (List.Perm.refl _)
  · intro m k hk
    show (if _ then _ else _) = (if _ then _ else _)
    by_cases e : m = n
    · subst e
      rw [if_pos rfl, if_pos rfl, find_upd _ hd, ← h.attr m k hk, hf2, find, if_neg (Ne.symm hk)]
      unfold nodeAttr
      rw [ha]
      rfl
    · rw [if_neg e, if_neg e]
  · intro m l
    show (if _ then _ else _) ↔ (if _ then _ else _)
    by_cases e : m = n
    · rw [if_pos e, if_pos e]
    · rw [if_neg e, if_neg e]
      exact Iff.rfl

theorem Sees.setAttr {g : DG} {w : View} (h : Sees g w) {n : NodeId} (hn : w.has n) {k : String} (v : Val) (hk : k ≠ "layers") : ∃ g', g.setAttr n k v = .ok g' ∧ Sees g' (w.update n [(k, v)]) := by
  obtain ⟨g', e, s⟩ := h.update hn (d := [(k, v)]) (by simp [keys]) (by simpa [keys] using fun h => hk h.symm)
  refine ⟨g', ?_, s⟩
  rw [← e]
  unfold DG.setAttr updateNode
  cases find g.nodes n <;> rfl

/-- removing a node without edges -/
theorem Sees.remove {g : DG} {w : View} (h : Sees g w) {n : NodeId} (hn : w.has n) (he : ∀ e ∈ w.edges, e.source ≠ n ∧ e.target ≠ n) : ∃ g', g.removeNode n = .ok g' ∧ Sees g' (w.remove n) := by
  have hn' := (h.nodes n).2 hn
  have hex : ∃ g', g.removeNode n = .ok g' ∧ g'.ns = g.ns ∧ g'.root = g.root ∧ g'.tokens = g.tokens ∧ g'.sentences = g.sentences := by
    unfold removeNode
    rw [if_pos ((has_iff _ _).2 hn')]
    exact ⟨_, rfl, rfl, rfl, rfl, rfl⟩
  obtain ⟨g', e, m1, m2, m3, m4⟩ := hex
  obtain ⟨_, hi, ha, hk⟩ := removeNode_ok h.inv e
  have hkd : ∀ u v, g'.kd? u v = g.kd? u v := by
    intro u v
    rw [hk]
    split
    · rename_i huv
      cases hx : g.kd? u v with
      | none => rfl
      | some kd =>
        have hne := h.inv.wf.kdNonempty u v kd hx
        obtain ⟨⟨k, a⟩, r, rfl⟩ := List.exists_cons_of_ne_nil hne
        have : g.edgeAttrs u v k = some a := by unfold edgeAttrs; rw [hx]; simp [find]
        obtain ⟨x, hx', rfl, rfl, _⟩ := h.edges.sound u v a ⟨k, this⟩
        exact (huv.elim (he x hx').1 (he x hx').2).elim
    · rfl
  refine ⟨g', e, hi, ?_, m1.trans h.ns, m2.trans h.root, m3.trans h.tokens, m4.trans h.sentences, ?_, ?_, ?_, edgesAre_of_kd? h.edges hkd⟩
  · intro m a hm
    rw [ha] at hm
    split at hm
    · cases hm
    · exact h.layered m a hm
  · intro m
    rw [hasNode_some, ha]
    show _ ↔ w.has m ∧ m ≠ n
    by_cases hm : m = n
    · rw [if_pos hm]; simp [hm]
    · rw [if_neg hm, ← hasNode_some, h.nodes]
      exact ⟨fun h => ⟨h, hm⟩, fun h => h.1⟩
  · intro m k hk
    unfold nodeAttr
    rw [ha]
    show _ = if _ then _ else _
    by_cases hm : m = n
    · rw [if_pos hm, if_pos hm]; rfl
    · rw [if_neg hm, if_neg hm]
      exact h.attr m k hk
  · intro m l
    unfold NodeLayer
    rw [ha]
    show _ ↔ w.layer m l ∧ m ≠ n
    by_cases hm : m = n
    · rw [if_pos hm]; simp [hm]
    · rw [if_neg hm]
      rw [← h.layer]
      exact ⟨fun h => ⟨h, hm⟩, fun h => h.1⟩

/-- the content of a new graph -/
def View.new (ns : String) : View :=
  ⟨ns, docRoot ns, [], [], fun m => m = docRoot ns, fun m k => if m = docRoot ns ∧ k = "metadata" then some (.dict []) else none, fun m l => m = docRoot ns ∧ l = .str ns, []⟩

theorem sees_init (name ns : String) : Sees { init "" ns none with name := name } (View.new ns) := by
  have d := docGraph_init name ns
  refine ⟨d.inv, d.layered, d.ns, d.root, rfl, rfl, ?_, ?_, ?_, d.edges⟩
  · intro m
    rw [d.nodes]
    simp [View.new]
  · intro m k hk
    exact d.other m (by simp) k hk
  · intro m l
    show _ ↔ m = docRoot ns ∧ l = .str ns
    by_cases hm : m = docRoot ns
    · subst hm
      rw [d.rootLayer]; simp
    · refine ⟨fun h => (nodeLayer_none ?_ l h).elim, fun h => (hm h.1).elim⟩
      rw [d.nodes]
      simp [hm]

end DG
end Dg
