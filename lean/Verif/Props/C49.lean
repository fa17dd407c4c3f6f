import Verif.Props.C46
import Verif.Lemmas.NodesLayered

/-! C49: what write_gexf and write_graphml hand to networkx. -/

namespace Dg
open Dict
namespace DG

theorem wf_of_nodes {g g' : DG} (wf : WF g) (hn : keys g'.nodes = keys g.nodes) (ha : g'.adj = g.adj) : WF g' := by
  have hkd : ∀ u v, g'.kd? u v = g.kd? u v := by intro u v; unfold kd?; rw [ha]
  refine ⟨by rw [hn]; exact wf.nodesNodup, by rw [ha, hn]; exact wf.adjKeys, by rw [ha]; exact wf.nbrsNodup, ?_, ?_, ?_⟩
  · intro u v kd h; rw [hkd] at h; exact wf.kdNodup u v kd h
  · intro u v kd h; rw [hkd] at h; exact wf.kdNonempty u v kd h
  · intro u v kd h; rw [hkd] at h; rw [hn]; exact wf.target u v kd h

/-- every layers value of `g` is a set or a string -/
structure StrableLayers (g : DG) : Prop where
  nodes : ∀ n a, g.nodeAttrs n = some a → ∃ v, find a "layers" = some v
  edges : ∀ u v k a, g.edgeAttrs u v k = some a → ∃ v, find a "layers" = some v

/-- layerset2str always succeeds if all nodes and edges have layers -/
theorem layerset2str_total (repr : Val → String) {g : DG} (wf : WF g) (h : StrableLayers g) :
    ∃ g', layerset2str repr g = (g', none) ∧ CastGraph (fun _ w => ∃ s, w = .atom (.str s)) g g' := by
  let F : Val → Val := fun v => match v with | .atom (.str s) => .atom (.str s) | v => .atom (.str (repr v))
  have hF : ∀ v, ∃ s, F v = .atom (.str s) := by
    intro v
    cases v with
    | atom x => cases x <;> exact ⟨_, rfl⟩
    | set x => exact ⟨_, rfl⟩
    | list x => exact ⟨_, rfl⟩
    | dict x => exact ⟨_, rfl⟩
  have hok : ∀ a : Attrs, (∃ v, find a "layers" = some v) → CastOK (toStrVal repr) F a := by
    rintro a ⟨v, hx⟩
    refine ⟨v, hx, ?_, ?_, ?_⟩
    · cases v with
      | atom x => cases x <;> rfl
      | set x => rfl
      | list x => rfl
      | dict x => rfl
    · obtain ⟨s, hs⟩ := hF v; rw [hs]; rfl
    · obtain ⟨s, hs⟩ := hF v; rw [hs]
  apply castLayers_spec (F := F) wf
  · intro n a ha; exact hok a (h.nodes n a ha)
  · intro u v k a ha; exact hok a (h.edges u v k a ha)
  · intro n a _ v _; exact hF v
  · intro u v k a _ w _; exact hF w

/-- attribute values GEXF and GraphML can represent -/
def Exportable (v : Val) : Prop := ∃ x, v = .atom x

/-- values the preparation can deal with -/
def Listish (v : Val) : Prop := (∃ x, v = .atom x) ∨ ∃ xs, v = .list xs

/-- `g'` has the nodes and edges of `g`, all attributes of `g` except the metadata of roots and no others; scalars except layers are unchanged, and all values are scalars -/
structure PreparedFor (g g' : DG) : Prop where
  hasNode : ∀ n, g'.HasNode n ↔ g.HasNode n
  hasEdge : ∀ u v k, g'.HasEdge u v k ↔ g.HasEdge u v k
  nodeScalar : ∀ n x v, g'.nodeAttr n x = some v → Exportable v
  edgeScalar : ∀ u v k x w, g'.edgeAttr u v k x = some w → Exportable w
  nodeKept : ∀ n x v, g.nodeAttr n x = some v → ¬ (g.RootLike n ∧ x = "metadata") → ∃ w, g'.nodeAttr n x = some w ∧ (x ≠ "layers" → Exportable v → w = v)
  edgeKept : ∀ u v k x y, g.edgeAttr u v k x = some y → ∃ w, g'.edgeAttr u v k x = some w ∧ (x ≠ "layers" → Exportable y → w = y)
  nodeNew : ∀ n x w, g'.nodeAttr n x = some w → ∃ v, g.nodeAttr n x = some v
  edgeNew : ∀ u v k x w, g'.edgeAttr u v k x = some w → ∃ y, g.edgeAttr u v k x = some y


/-- what layerset2str and attriblist2str do to one attribute -/
inductive Step (x : String) : Option Val → Option Val → Prop
  | missing : Step x none none
  | same (v : Val) : Exportable v → Step x (some v) (some v)
  | cast (v : Val) (s : String) : (x = "layers" ∨ ¬ Exportable v) → Step x (some v) (some (.atom (.str s)))

theorem castGraph_node {R : Val → Val → Prop} {g g' : DG} (h : CastGraph R g g') (n : NodeId) (x : String) :
    (x ≠ "layers" → g'.nodeAttr n x = g.nodeAttr n x) ∧ (∀ v, g.nodeAttr n "layers" = some v → ∃ w, g'.nodeAttr n "layers" = some w ∧ R v w) ∧
    (g.nodeAttr n "layers" = none → g'.nodeAttr n "layers" = none) ∧ (g'.HasNode n ↔ g.HasNode n) := by
  rw [hasNode_iff', hasNode_iff']
  unfold nodeAttr
  rcases h.nodes n with ⟨h1, h2⟩ | ⟨a, a', h1, h2, h3, v, w, h4, h5, h6⟩
  · simp [h1, h2]
  · rw [h1, h2]
    simp only [Option.bind_some, Option.some.injEq, exists_eq', and_true]
    refine ⟨h3 x, ?_, by rw [h4]; simp⟩
    intro v' hv'
    rw [h4] at hv'; injection hv' with hv'; subst hv'
    exact ⟨w, h5, h6⟩

theorem castGraph_edge {R : Val → Val → Prop} {g g' : DG} (h : CastGraph R g g') (u v : NodeId) (k : Key) (x : String) :
    (x ≠ "layers" → g'.edgeAttr u v k x = g.edgeAttr u v k x) ∧ (∀ y, g.edgeAttr u v k "layers" = some y → ∃ w, g'.edgeAttr u v k "layers" = some w ∧ R y w) ∧
    (g.edgeAttr u v k "layers" = none → g'.edgeAttr u v k "layers" = none) ∧ (g'.HasEdge u v k ↔ g.HasEdge u v k) := by
  unfold edgeAttr HasEdge
  rcases h.edges u v k with ⟨h1, h2⟩ | ⟨a, a', h1, h2, h3, y, w, h4, h5, h6⟩
  · simp [h1, h2]
  · rw [h1, h2]
    simp only [Option.bind_some, Option.isSome_some, and_true]
    refine ⟨h3 x, ?_, by rw [h4]; simp⟩
    intro y' hv'
    rw [h4] at hv'; injection hv' with hv'; subst hv'
    exact ⟨w, h5, h6⟩

theorem step_of {x : String} {o p q : Option Val} {repr : Val → String} (h1 : x ≠ "layers" → p = o) (h2 : ∀ v, x = "layers" → o = some v → ∃ s, p = some (.atom (.str s)))
    (h3 : x = "layers" → o = none → p = none) (h4 : ListAsStr repr p q) (hl : x ≠ "layers" → ∀ v, o = some v → Listish v) : Step x o q := by
  by_cases hx : x = "layers"
  · cases o with
    | none =>
      rw [h3 hx rfl] at h4
      cases h4; exact .missing
    | some v =>
      obtain ⟨s, hs⟩ := h2 v hx rfl
      rw [hs] at h4
      cases h4; exact .cast v s (.inl hx)
  · rw [h1 hx] at h4
    cases h4 with
    | missing => exact .missing
    | list xs => exact .cast _ _ (.inr (by rintro ⟨y, hy⟩; simp at hy))
    | other v hv =>
      rcases hl hx v rfl with he | ⟨xs, hxs⟩
      · exact .same v he
      · exact absurd hxs (hv xs)

/-- the two conversions on a graph whose other attributes are scalars or lists -/
theorem convert_spec (repr : Val → String) {g : DG} (wf : WF g) (h : StrableLayers g)
    (hn : ∀ n x v, g.nodeAttr n x = some v → x ≠ "layers" → Listish v) (he : ∀ u v k x y, g.edgeAttr u v k x = some y → x ≠ "layers" → Listish y) :
    ∃ g1, layerset2str repr g = (g1, none) ∧ (∀ n, (g1.attriblist2str repr).HasNode n ↔ g.HasNode n) ∧ (∀ u v k, (g1.attriblist2str repr).HasEdge u v k ↔ g.HasEdge u v k) ∧
      (∀ n x, Step x (g.nodeAttr n x) ((g1.attriblist2str repr).nodeAttr n x)) ∧ (∀ u v k x, Step x (g.edgeAttr u v k x) ((g1.attriblist2str repr).edgeAttr u v k x)) ∧
      SameMeta g (g1.attriblist2str repr) := by
  obtain ⟨g1, h1, h2⟩ := layerset2str_total repr wf h
  obtain ⟨b1, b2, b3, b4, b5⟩ := c46_attriblist2str repr g1
  refine ⟨g1, h1, fun n => (b1 n).trans (castGraph_node h2 n "").2.2.2, fun u v k => (b2 u v k).trans (castGraph_edge h2 u v k "").2.2.2, fun n x => ?_, fun u v k x => ?_, ?_⟩
  · obtain ⟨c1, c2, c3, _⟩ := castGraph_node h2 n x
    exact step_of c1 (fun v hx hv => by subst hx; obtain ⟨w, hw, s, rfl⟩ := c2 v hv; exact ⟨s, hw⟩) (fun hx hv => by subst hx; exact c3 hv) (b3 n x) (fun hx v hv => hn n x v hv hx)
  · obtain ⟨c1, c2, c3, _⟩ := castGraph_edge h2 u v k x
    exact step_of c1 (fun y hx hv => by subst hx; obtain ⟨w, hw, s, rfl⟩ := c2 y hv; exact ⟨s, hw⟩) (fun hx hv => by subst hx; exact c3 hv) (b4 u v k x) (fun hx y hv => he u v k x y hv hx)
  · obtain ⟨a1, a2, a3, a4, a5, a6, a7⟩ := b5
    obtain ⟨b1, b2, b3, b4, b5, b6, b7⟩ := h2.rest
    exact ⟨a1.trans b1, a2.trans b2, a3.trans b3, a4.trans b4, a5.trans b5, a6.trans b6, a7.trans b7⟩

theorem step_exportable {x : String} {o : Option Val} {v : Val} (h : Step x o (some v)) : Exportable v := by
  cases h with
  | same _ h => exact h
  | cast _ s _ => exact ⟨_, rfl⟩

theorem step_new {x : String} {o : Option Val} {v : Val} (h : Step x o (some v)) : ∃ w, o = some w := by
  cases h with
  | same _ h => exact ⟨_, rfl⟩
  | cast _ s _ => exact ⟨_, rfl⟩

theorem step_kept {x : String} {o : Option Val} {v : Val} (h : Step x (some v) o) : ∃ w, o = some w ∧ (x ≠ "layers" → Exportable v → w = v) := by
  cases h with
  | same _ h => exact ⟨_, rfl, fun _ _ => rfl⟩
  | cast _ s h => exact ⟨_, rfl, fun h1 h2 => absurd h (by simp [h1, h2])⟩

/-- **C49 (GEXF)**.  For every document graph with a root node and layer sets whose other attributes (apart from the metadata of roots) are scalars or lists, the graph
write_gexf hands to networkx has the same nodes and edges, only scalar attribute values, all scalars unchanged, and no attribute is lost except the metadata of roots. -/
theorem c49_gexf (repr : Val → String) (g : DG) (hr : Reachable g) (hl : NodesLayered False g) (hroot : g.HasNode g.root)
    (hn : ∀ n x v, g.nodeAttr n x = some v → x ≠ "layers" → ¬ (g.RootLike n ∧ x = "metadata") → Listish v)
    (he : ∀ u v k x y, g.edgeAttr u v k x = some y → x ≠ "layers" → Listish y) : ∃ g', g.prepareGexf repr = .ok g' ∧ PreparedFor g g' := by
  obtain ⟨g1, h1, h2⟩ := c46_remove_root_metadata g hroot
  have wf1 := wf_of_nodes hr.inv.wf h2.nodes h2.edges
  have hkd : ∀ u v, g1.kd? u v = g.kd? u v := by intro u v; unfold kd?; rw [h2.edges]
  have hea : ∀ u v k, g1.edgeAttrs u v k = g.edgeAttrs u v k := edgeAttrs_of_kd? hkd
  have hea' : ∀ u v k x, g1.edgeAttr u v k x = g.edgeAttr u v k x := by intro u v k x; unfold edgeAttr; rw [hea]
  have hnode : ∀ n, g1.HasNode n ↔ g.HasNode n := by intro n; unfold HasNode; rw [h2.nodes]
  have hstr : StrableLayers g1 := by
    refine ⟨?_, ?_⟩
    · intro n a ha
      obtain ⟨b, hb⟩ := hasNode_iff'.1 ((hnode n).1 (hasNode_iff'.2 ⟨a, ha⟩))
      obtain ⟨xs, hx, _⟩ := hl n b hb
      have := h2.kept n "layers" (by simp)
      unfold nodeAttr at this
      rw [ha, hb] at this
      simp only [Option.bind_some] at this
      exact ⟨_, this.trans hx⟩
    · intro u v k a ha
      rw [hea] at ha
      obtain ⟨xs, hx, _⟩ := hr.inv.edges _ _ _ _ ha
      exact ⟨_, hx⟩
  obtain ⟨g2, c1, c2, c3, c4, c5, _⟩ := convert_spec repr wf1 hstr (by
    intro n x v hv hx
    by_cases hm : g.RootLike n ∧ x = "metadata"
    · obtain ⟨hm, rfl⟩ := hm
      rw [h2.dropped n hm] at hv; simp at hv
    · rw [h2.kept n x hm] at hv
      exact hn n x v hv hx hm) (by
    intro u v k x y hy hx
    rw [hea'] at hy
    exact he u v k x y hy hx)
  refine ⟨g2.attriblist2str repr, by unfold prepareGexf; rw [h1]; simp only [bind, Except.bind]; rw [c1],
    ⟨fun n => (c2 n).trans (hnode n), fun u v k => (c3 u v k).trans (by unfold HasEdge; rw [hea]), ?_, ?_, ?_, ?_, ?_, ?_⟩⟩
  · intro n x v hv
    have := c4 n x; rw [hv] at this; exact step_exportable this
  · intro u v k x w hv
    have := c5 u v k x; rw [hv] at this; exact step_exportable this
  · intro n x v hv hm
    have := c4 n x
    rw [h2.kept n x hm, hv] at this
    exact step_kept this
  · intro u v k x y hy
    have := c5 u v k x
    rw [hea', hy] at this
    exact step_kept this
  · intro n x w hw
    have := c4 n x; rw [hw] at this
    obtain ⟨v, hv⟩ := step_new this
    by_cases hm : g.RootLike n ∧ x = "metadata"
    · obtain ⟨hm, rfl⟩ := hm
      rw [h2.dropped n hm] at hv; simp at hv
    · rw [h2.kept n x hm] at hv; exact ⟨v, hv⟩
  · intro u v k x w hw
    have := c5 u v k x; rw [hw, hea'] at this
    exact step_new this

/-- **C49 (GraphML)**.  The same for write_graphml, where the metadata of roots is removed last. -/
theorem c49_graphml (repr : Val → String) (g : DG) (hr : Reachable g) (hl : NodesLayered False g) (hroot : g.HasNode g.root)
    (hn : ∀ n x v, g.nodeAttr n x = some v → x ≠ "layers" → ¬ (g.RootLike n ∧ x = "metadata") → Listish v)
    (he : ∀ u v k x y, g.edgeAttr u v k x = some y → x ≠ "layers" → Listish y) : ∃ g', g.prepareGraphml repr = .ok g' ∧ PreparedFor g g' := by
  have hstr : StrableLayers g := by
    refine ⟨fun n a ha => ?_, fun u v k a ha => ?_⟩
    · obtain ⟨xs, hx, _⟩ := hl n a ha; exact ⟨_, hx⟩
    · obtain ⟨xs, hx, _⟩ := hr.inv.edges _ _ _ _ ha; exact ⟨_, hx⟩
  obtain ⟨g1, c1, d⟩ := layerset2str_total repr hr.inv.wf hstr
  obtain ⟨b1, b2, b3, b4, b5⟩ := c46_attriblist2str repr g1
  have hnode : ∀ n, (g1.attriblist2str repr).HasNode n ↔ g.HasNode n := fun n => (b1 n).trans (castGraph_node d n "").2.2.2
  have hsame : SameMeta g (g1.attriblist2str repr) := by
    obtain ⟨a1, a2, a3, a4, a5, a6, a7⟩ := b5
    obtain ⟨b1, b2, b3, b4, b5, b6, b7⟩ := d.rest
    exact ⟨a1.trans b1, a2.trans b2, a3.trans b3, a4.trans b4, a5.trans b5, a6.trans b6, a7.trans b7⟩
  have hrt : (g1.attriblist2str repr).root = g.root := by
    obtain ⟨_, _, a3, _⟩ := hsame; exact a3
  have hml : (g1.attriblist2str repr).mergedRoots = g.mergedRoots := by
    obtain ⟨_, _, _, _, _, a6, a7⟩ := hsame
    first | exact a6 | exact a7
  have hrl : ∀ n, (g1.attriblist2str repr).RootLike n ↔ g.RootLike n := by intro n; unfold RootLike; rw [hrt, hml]
  obtain ⟨g2, h1, h2⟩ := c46_remove_root_metadata (g1.attriblist2str repr) (by rw [hrt]; exact (hnode _).2 hroot)
  have hea : ∀ u v k, g2.edgeAttrs u v k = (g1.attriblist2str repr).edgeAttrs u v k := edgeAttrs_of_kd? (by intro u v; unfold kd?; rw [h2.edges])
  have hea' : ∀ u v k x, g2.edgeAttr u v k x = (g1.attriblist2str repr).edgeAttr u v k x := by intro u v k x; unfold edgeAttr; rw [hea]
  have c4 : ∀ n x, ¬ (g.RootLike n ∧ x = "metadata") → Step x (g.nodeAttr n x) (g2.nodeAttr n x) := by
    intro n x hm
    rw [h2.kept n x (by rw [hrl]; exact hm)]
    obtain ⟨c1, c2, c3, _⟩ := castGraph_node d n x
    exact step_of c1 (fun v hx hv => by subst hx; obtain ⟨w, hw, s, rfl⟩ := c2 v hv; exact ⟨s, hw⟩) (fun hx hv => by subst hx; exact c3 hv) (b3 n x) (fun hx v hv => hn n x v hv hx hm)
  have c5 : ∀ u v k x, Step x (g.edgeAttr u v k x) (g2.edgeAttr u v k x) := by
    intro u v k x
    rw [hea']
    obtain ⟨c1, c2, c3, _⟩ := castGraph_edge d u v k x
    exact step_of c1 (fun y hx hv => by subst hx; obtain ⟨w, hw, s, rfl⟩ := c2 y hv; exact ⟨s, hw⟩) (fun hx hv => by subst hx; exact c3 hv) (b4 u v k x) (fun hx y hv => he u v k x y hv hx)
  have hdrop : ∀ n x w, g2.nodeAttr n x = some w → ¬ (g.RootLike n ∧ x = "metadata") := by
    rintro n x w hw ⟨hm, rfl⟩
    rw [h2.dropped n ((hrl n).2 hm)] at hw; simp at hw
  refine ⟨g2, by unfold prepareGraphml; rw [c1]; exact h1,
    ⟨fun n => (by unfold HasNode; rw [h2.nodes] : g2.HasNode n ↔ (g1.attriblist2str repr).HasNode n).trans (hnode n),
     fun u v k => (by unfold HasEdge; rw [hea] : g2.HasEdge u v k ↔ (g1.attriblist2str repr).HasEdge u v k).trans ((b2 u v k).trans (castGraph_edge d u v k "").2.2.2), ?_, ?_, ?_, ?_, ?_, ?_⟩⟩
  · intro n x v hv
    have := c4 n x (hdrop n x v hv); rw [hv] at this; exact step_exportable this
  · intro u v k x w hv
    have := c5 u v k x; rw [hv] at this; exact step_exportable this
  · intro n x v hv hm
    have := c4 n x hm
    rw [hv] at this
    exact step_kept this
  · intro u v k x y hy
    have := c5 u v k x
    rw [hy] at this
    exact step_kept this
  · intro n x w hw
    have := c4 n x (hdrop n x w hw); rw [hw] at this
    exact step_new this
  · intro u v k x w hw
    have := c5 u v k x; rw [hw] at this
    exact step_new this

theorem exportDoc_layered : NodesLayered False exportDoc :=
  nodesLayered_run (inv_init _ _ _) (nodesLayered_init False _ _ _) (by decide) (by simp [Op.SafeLayers]) (fun h => h.elim)

/-- a dictionary elsewhere is not exportable: the result still contains it -/
theorem c49_other_dictionaries_stay (repr : Val → String) : ∃ g, Reachable g ∧ ∃ g', g.prepareGexf repr = .ok g' ∧ g'.nodeAttr (.str "t") "morph" = some (.dict [("case", .str "nom")]) :=
  ⟨(init "" "a" (some (.str "r"))).run [.addNode (.str "t") (.atom .none) .none [("morph", .dict [("case", .str "nom")])]], ⟨"", "a", some (.str "r"), _, by decide, rfl⟩, _, rfl, rfl⟩

example : Reachable exportDoc ∧ NodesLayered False exportDoc ∧ exportDoc.HasNode exportDoc.root ∧
    ((exportDoc.prepareGexf (fun _ => "repr")).toOption.bind (fun g => g.nodeAttr (.str "t1") "x")) = some (.atom (.str "repr")) :=
  ⟨exportDoc_reachable, exportDoc_layered, by decide, by decide⟩

end DG
end Dg
