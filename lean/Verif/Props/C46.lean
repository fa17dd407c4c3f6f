import Verif.Model.Generic
import Verif.Lemmas.Edges
import Verif.Lemmas.GraphInv
import Verif.Lemmas.GraphStep
import Verif.Lemmas.Relabel
import Verif.Spec.Layers
import Batteries.Lean.Except

/-! C46: remove_root_metadata, layerset2list, layerset2str, attriblist2str. -/

namespace Dg
open Dict
namespace DG

/-- `a'` is `a` with the layers replaced: `R old new` relates the two layers values -/
def LayersCast (R : Val → Val → Prop) (a a' : Attrs) : Prop :=
  (∀ x, x ≠ "layers" → find a' x = find a x) ∧ ∃ v w, find a "layers" = some v ∧ find a' "layers" = some w ∧ R v w

/-- `g'` is `g` with the layers of every node and every edge replaced, and nothing else changed -/
structure CastGraph (R : Val → Val → Prop) (g g' : DG) : Prop where
  nodes : ∀ n, (g.nodeAttrs n = none ∧ g'.nodeAttrs n = none) ∨ ∃ a a', g.nodeAttrs n = some a ∧ g'.nodeAttrs n = some a' ∧ LayersCast R a a'
  edges : ∀ u v k, (g.edgeAttrs u v k = none ∧ g'.edgeAttrs u v k = none) ∨
    ∃ a a', g.edgeAttrs u v k = some a ∧ g'.edgeAttrs u v k = some a' ∧ LayersCast R a a'
  rest : SameMeta g g'

/-- the values to be cast: `f` yields `F v` and does not change `F v` any more -/
def CastOK (f : Val → Except PyErr Val) (F : Val → Val) (a : Attrs) : Prop := ∃ v, find a "layers" = some v ∧ f v = .ok (F v) ∧ f (F v) = .ok (F v) ∧ F (F v) = F v

def castA (F : Val → Val) (a : Attrs) : Attrs :=
  match find a "layers" with
  | none => a
  | some v => put a "layers" (F v)

theorem castAttrs_ok {f : Val → Except PyErr Val} {F : Val → Val} {a : Attrs} (h : CastOK f F a) : castAttrs f a = .ok (castA F a) := by
  obtain ⟨v, h1, h2, _⟩ := h
  unfold castAttrs castA; rw [h1]; simp [h2, bind, Except.bind]

theorem castOK_cast {f : Val → Except PyErr Val} {F : Val → Val} {a : Attrs} (h : CastOK f F a) : CastOK f F (castA F a) ∧ castA F (castA F a) = castA F a := by
  obtain ⟨v, h1, h2, h3, h4⟩ := h
  have hc : castA F a = put a "layers" (F v) := by unfold castA; rw [h1]
  have hf : find (castA F a) "layers" = some (F v) := by rw [hc, find_put]; simp
  refine ⟨⟨F v, hf, by rw [h4, h3], by rw [h4, h3], by rw [h4, h4]⟩, ?_⟩
  rw [castA, hf]
  simp only
  rw [hc, put_put, h4]

theorem layersCast_castA {f : Val → Except PyErr Val} {F : Val → Val} {R : Val → Val → Prop} {a : Attrs} (h : CastOK f F a) (hR : ∀ v, find a "layers" = some v → R v (F v)) :
    LayersCast R a (castA F a) := by
  obtain ⟨v, h1, _⟩ := h
  unfold castA
  rw [h1]
  refine ⟨fun x hx => ?_, v, F v, h1, by simp [find_put], hR v h1⟩
  rw [find_put_ne _ _ (Ne.symm hx)]

theorem castNodes_spec {f : Val → Except PyErr Val} {F : Val → Val} (ns : List NodeId) : ∀ (g : DG), ns.Nodup → (∀ n ∈ ns, ∃ a, g.nodeAttrs n = some a ∧ CastOK f F a) →
    ∃ g', castNodes f g ns = (g', none) ∧ (∀ n, g'.nodeAttrs n = if n ∈ ns then (g.nodeAttrs n).map (castA F) else g.nodeAttrs n) ∧ g'.adj = g.adj ∧ SameMeta g g' := by
  induction ns with
  | nil => intro g _ _; exact ⟨g, rfl, by simp, rfl, rfl, rfl, rfl, rfl, rfl, rfl, rfl⟩
  | cons n ns ih =>
    intro g nd h
    rw [List.nodup_cons] at nd
    obtain ⟨a, ha, hok⟩ := h n (by simp)
    have hput : ∀ m, ({ g with nodes := put g.nodes n (castA F a) } : DG).nodeAttrs m = if n = m then some (castA F a) else g.nodeAttrs m := by
      intro m; unfold nodeAttrs; exact find_put _ _ _ _
    obtain ⟨g', h1, h2, h3, h4⟩ := ih { g with nodes := put g.nodes n (castA F a) } nd.2 (by
      intro m hm
      rw [hput, if_neg (by rintro rfl; exact nd.1 hm)]
      exact h m (List.mem_cons_of_mem _ hm))
    refine ⟨g', ?_, ?_, h3, h4⟩
    · have ha' : find g.nodes n = some a := ha
      simp only [castNodes, ha', castAttrs_ok hok]; exact h1
    · intro m
      rw [h2, hput]
      by_cases hm : n = m
      · subst hm; simp [nd.1, ha]
      · have : ¬ m = n := fun h => hm h.symm
        simp [hm, this]

theorem castKeys_spec {f : Val → Except PyErr Val} {F : Val → Val} (kd : KeyDict) (h : ∀ p ∈ kd, CastOK f F p.2) :
    castKeys f kd = (kd.map (fun p => (p.1, castA F p.2)), none) := by
  induction kd with
  | nil => rfl
  | cons p kd ih =>
    obtain ⟨k, a⟩ := p
    have h0 := castAttrs_ok (h (k, a) (by simp))
    simp only at h0
    simp only [castKeys, h0, ih (fun q hq => h q (List.mem_cons_of_mem _ hq)), List.map_cons]

theorem castEdges_spec {f : Val → Except PyErr Val} {F : Val → Val} (es : List (NodeId × NodeId)) : ∀ (g : DG),
    (∀ u v kd, g.kd? u v = some kd → ∀ p ∈ kd, CastOK f F p.2) → (∀ p ∈ es, ∃ kd, g.kd? p.1 p.2 = some kd) →
    ∃ g', castEdges f g es = (g', none) ∧
      (∀ u v, g'.kd? u v = if (u, v) ∈ es then (g.kd? u v).map (fun kd => kd.map (fun p => (p.1, castA F p.2))) else g.kd? u v) ∧ g'.nodes = g.nodes ∧ SameMeta g g' := by
  induction es with
  | nil => intro g _ _; exact ⟨g, rfl, by simp, rfl, rfl, rfl, rfl, rfl, rfl, rfl, rfl⟩
  | cons e es ih =>
    intro g hok hex
    obtain ⟨u, v⟩ := e
    obtain ⟨kd, hkd⟩ := hex (u, v) (by simp)
    simp only at hkd
    have hu : u ∈ keys g.adj := by
      unfold kd? at hkd
      cases hf : find g.adj u with
      | none => rw [hf] at hkd; simp at hkd
      | some nb => exact (mem_keys_iff _ _).2 ⟨nb, hf⟩
    have hc := castKeys_spec (f := f) (F := F) kd (hok u v kd hkd)
    have hput := kd?_putKeyDict (v := v) hu (kd.map (fun p => (p.1, castA F p.2)))
    have hmap : ∀ kd0 : KeyDict, (∀ p ∈ kd0, CastOK f F p.2) → (kd0.map (fun p => (p.1, castA F p.2))).map (fun p => (p.1, castA F p.2)) = kd0.map (fun p => (p.1, castA F p.2)) := by
      intro kd0 h0
      rw [List.map_map]
      apply List.map_congr_left
      intro p hp
      simp only [Function.comp, (castOK_cast (h0 p hp)).2]
    obtain ⟨g', h1, h2, h3, h4⟩ := ih (g.putKeyDict u v (kd.map (fun p => (p.1, castA F p.2)))) (by
      intro u' v' kd' hkd' p hp
      rw [hput] at hkd'
      split at hkd'
      · injection hkd' with hkd'
        subst hkd'
        obtain ⟨q, hq, rfl⟩ := List.mem_map.1 hp
        exact (castOK_cast (hok u v kd hkd q hq)).1
      · exact hok u' v' kd' hkd' p hp) (by
      intro p hp
      rw [hput]
      split
      · exact ⟨_, rfl⟩
      · exact hex p (List.mem_cons_of_mem _ hp))
    refine ⟨g', ?_, ?_, by rw [h3, nodes_putKeyDict], ?_⟩
    · unfold kd? at hkd
      simp only [castEdges, hkd, hc]; exact h1
    · intro u' v'
      rw [h2, hput]
      by_cases huv : u' = u ∧ v' = v
      · obtain ⟨rfl, rfl⟩ := huv
        simp only [and_self, if_true, hkd, List.mem_cons, true_or, Option.map_some]
        split
        · rw [hmap kd (hok _ _ kd hkd)]
        · rfl
      · rw [if_neg huv]
        have : ((u', v') ∈ (u, v) :: es) ↔ (u', v') ∈ es := by
          simp only [List.mem_cons, Prod.mk.injEq, huv, false_or]
        simp only [this]
    · have hs := sameMeta_putKeyDict g u v (kd.map (fun p => (p.1, castA F p.2)))
      obtain ⟨a1, a2, a3, a4, a5, a6, a7⟩ := h4
      obtain ⟨b1, b2, b3, b4, b5, b6, b7⟩ := hs
      exact ⟨a1.trans b1, a2.trans b2, a3.trans b3, a4.trans b4, a5.trans b5, a6.trans b6, a7.trans b7⟩

theorem castLayers_spec {f : Val → Except PyErr Val} {F : Val → Val} {R : Val → Val → Prop} {g : DG} (wf : WF g)
    (hn : ∀ n a, g.nodeAttrs n = some a → CastOK f F a) (he : ∀ u v k a, g.edgeAttrs u v k = some a → CastOK f F a)
    (hRn : ∀ n a, g.nodeAttrs n = some a → ∀ v, find a "layers" = some v → R v (F v)) (hRe : ∀ u v k a, g.edgeAttrs u v k = some a → ∀ w, find a "layers" = some w → R w (F w)) :
    ∃ g', castLayers f g = (g', none) ∧ CastGraph R g g' := by
  obtain ⟨g1, h1, h2, h3, h4⟩ := castNodes_spec (f := f) (F := F) (keys g.nodes) g wf.nodesNodup (by
    intro n hn'
    obtain ⟨a, ha⟩ := hasNode_iff'.1 (show g.HasNode n from hn')
    exact ⟨a, ha, hn n a ha⟩)
  have hkd : ∀ u v, g1.kd? u v = g.kd? u v := by intro u v; unfold kd?; rw [h3]
  have hedges : g1.edges = g.edges := by unfold edges; rw [h3]
  have hkd' : ∀ u v kd, g.kd? u v = some kd → ∀ p ∈ kd, g.edgeAttrs u v p.1 = some p.2 := by
    intro u v kd hk p hp
    unfold edgeAttrs; rw [hk]
    exact mem_find (wf.kdNodup _ _ _ hk) hp
  obtain ⟨g2, e1, e2, e3, e4⟩ := castEdges_spec (f := f) (F := F) (g1.edges.map (fun e => (e.1, e.2.1))) g1 (by
    intro u v kd hk p hp
    rw [hkd] at hk
    exact he u v p.1 p.2 (hkd' u v kd hk p hp)) (by
    intro p hp
    obtain ⟨⟨u, v, k, a⟩, hm, rfl⟩ := List.mem_map.1 hp
    rw [hedges] at hm
    have := (mem_edges_iff wf _ _ _ _).1 hm
    unfold edgeAttrs at this
    cases hk : g.kd? u v with
    | none => rw [hk] at this; simp at this
    | some kd => exact ⟨kd, by rw [hkd]; exact hk⟩)
  refine ⟨g2, by unfold castLayers; rw [h1]; exact e1, ⟨?_, ?_, ?_⟩⟩
  · intro n
    have : g2.nodeAttrs n = g1.nodeAttrs n := by unfold nodeAttrs; rw [e3]
    rw [this, h2]
    cases ha : g.nodeAttrs n with
    | none => left; simp
    | some a =>
      right
      have hm : n ∈ keys g.nodes := hasNode_iff'.2 ⟨a, ha⟩
      exact ⟨a, castA F a, rfl, by rw [if_pos hm]; rfl, layersCast_castA (hn n a ha) (hRn n a ha)⟩
  · intro u v k
    cases ha : g.edgeAttrs u v k with
    | none =>
      left
      refine ⟨rfl, ?_⟩
      unfold edgeAttrs at ha ⊢
      rw [e2, hkd]
      split
      · cases hk : g.kd? u v with
        | none => simp
        | some kd =>
          rw [hk] at ha
          simp only [Option.bind_some] at ha
          simp only [Option.map_some, Option.bind_some, find_mapVal kd (castA F) k, ha, Option.map_none]
      · exact ha
    | some a =>
      right
      have hin : (u, v) ∈ g1.edges.map (fun e => (e.1, e.2.1)) := by
        rw [hedges]
        exact List.mem_map.2 ⟨(u, v, k, a), (mem_edges_iff wf _ _ _ _).2 ha, rfl⟩
      refine ⟨a, castA F a, rfl, ?_, layersCast_castA (he u v k a ha) (hRe u v k a ha)⟩
      unfold edgeAttrs at ha ⊢
      rw [e2, hkd, if_pos hin]
      cases hk : g.kd? u v with
      | none => rw [hk] at ha; simp at ha
      | some kd =>
        rw [hk] at ha
        simp only [Option.bind_some] at ha
        simp only [Option.map_some, Option.bind_some, find_mapVal kd (castA F) k, ha]
  · obtain ⟨a1, a2, a3, a4, a5, a6, a7⟩ := e4
    obtain ⟨b1, b2, b3, b4, b5, b6, b7⟩ := h4
    exact ⟨a1.trans b1, a2.trans b2, a3.trans b3, a4.trans b4, a5.trans b5, a6.trans b6, a7.trans b7⟩

/-- a set and a list with the same elements, each of them once -/
def SetAsList (v w : Val) : Prop := ∃ xs ys, v = .set xs ∧ w = .list ys ∧ ys.Nodup ∧ ∀ x, x ∈ ys ↔ x ∈ xs

/-- **C46 (layerset2list)**.  In every document graph whose nodes carry layer sets (C01), layerset2list replaces the layer set of every node and of every edge (parallel edges
included) by a list with the same elements and changes nothing else, in whatever order Python iterates over sets. -/
theorem c46_layerset2list (ord : List Atom → List Atom) (hord : ∀ xs, (ord xs).Perm xs) (g : DG) (hr : Reachable g) (hl : NodesLayered False g) :
    ∃ g', layerset2list ord g = (g', none) ∧ CastGraph SetAsList g g' := by
  let F : Val → Val := fun v => match v with | .set xs => .list (ord xs.dedup) | v => v
  have hok : ∀ a : Attrs, (∃ xs, find a "layers" = some (.set xs)) → CastOK (toListVal ord) F a := by
    rintro a ⟨xs, hx⟩; exact ⟨_, hx, rfl, rfl, rfl⟩
  have hset : ∀ xs, SetAsList (.set xs) (F (.set xs)) := fun xs =>
    ⟨xs, _, rfl, rfl, (hord _).nodup_iff.2 (List.nodup_dedup xs), fun x => by rw [(hord _).mem_iff, List.mem_dedup]⟩
  apply castLayers_spec (F := F) hr.inv.wf
  · intro n a ha
    obtain ⟨xs, hx, _⟩ := hl n a ha
    exact hok a ⟨xs, hx⟩
  · intro u v k a ha
    obtain ⟨xs, hx, _⟩ := hr.inv.edges _ _ _ _ ha
    exact hok a ⟨xs, hx⟩
  · intro n a ha v hv
    obtain ⟨xs, hx, _⟩ := hl n a ha
    rw [hx] at hv; injection hv with hv; subst hv; exact hset xs
  · intro u v k a ha w hw
    obtain ⟨xs, hx, _⟩ := hr.inv.edges _ _ _ _ ha
    rw [hx] at hw; injection hw with hw; subst hw; exact hset xs

/-- `w` is the string representation of the set `v` -/
def SetAsStr (repr : Val → String) (v w : Val) : Prop := (∃ xs, v = .set xs) ∧ w = .atom (.str (repr v))

/-- **C46 (layerset2str)**.  layerset2str replaces the layer set of every node and of every edge by its string representation and changes nothing else. -/
theorem c46_layerset2str (repr : Val → String) (g : DG) (hr : Reachable g) (hl : NodesLayered False g) :
    ∃ g', layerset2str repr g = (g', none) ∧ CastGraph (SetAsStr repr) g g' := by
  let F : Val → Val := fun v => match v with | .atom (.str s) => .atom (.str s) | v => .atom (.str (repr v))
  have hok : ∀ a : Attrs, (∃ xs, find a "layers" = some (.set xs)) → CastOK (toStrVal repr) F a := by
    rintro a ⟨xs, hx⟩; exact ⟨_, hx, rfl, rfl, rfl⟩
  have hset : ∀ xs, SetAsStr repr (.set xs) (F (.set xs)) := fun xs => ⟨⟨xs, rfl⟩, rfl⟩
  apply castLayers_spec (F := F) hr.inv.wf
  · intro n a ha
    obtain ⟨xs, hx, _⟩ := hl n a ha
    exact hok a ⟨xs, hx⟩
  · intro u v k a ha
    obtain ⟨xs, hx, _⟩ := hr.inv.edges _ _ _ _ ha
    exact hok a ⟨xs, hx⟩
  · intro n a ha v hv
    obtain ⟨xs, hx, _⟩ := hl n a ha
    rw [hx] at hv; injection hv with hv; subst hv; exact hset xs
  · intro u v k a ha w hw
    obtain ⟨xs, hx, _⟩ := hr.inv.edges _ _ _ _ ha
    rw [hx] at hw; injection hw with hw; subst hw; exact hset xs

/-- what attriblist2str makes of a value: lists become strings -/
inductive ListAsStr (repr : Val → String) : Option Val → Option Val → Prop
  | missing : ListAsStr repr none none
  | list (xs : List Atom) : ListAsStr repr (some (.list xs)) (some (.atom (.str (repr (.list xs)))))
  | other (v : Val) : (∀ xs, v ≠ .list xs) → ListAsStr repr (some v) (some v)

theorem nodeAttrs_attriblist2str (repr : Val → String) (g : DG) (n : NodeId) :
    (g.attriblist2str repr).nodeAttrs n = (g.nodeAttrs n).map (mapAttrs (listToStr repr)) := by
  unfold attriblist2str nodeAttrs; exact find_mapVal _ _ _

theorem edgeAttrs_attriblist2str (repr : Val → String) (g : DG) (u v : NodeId) (k : Key) :
    (g.attriblist2str repr).edgeAttrs u v k = (g.edgeAttrs u v k).map (mapAttrs (listToStr repr)) := by
  unfold attriblist2str edgeAttrs kd?
  simp only
  rw [find_mapVal g.adj (fun nb => nb.map (fun q => (q.1, q.2.map (fun r => (r.1, mapAttrs (listToStr repr) r.2)))))]
  cases find g.adj u with
  | none => simp
  | some nb =>
    simp only [Option.map_some, Option.bind_some]
    rw [find_mapVal nb (fun kd : KeyDict => kd.map (fun r => (r.1, mapAttrs (listToStr repr) r.2)))]
    cases find nb v with
    | none => simp
    | some kd =>
      simp only [Option.map_some, Option.bind_some]
      exact find_mapVal kd _ k

theorem listAsStr_mapAttrs (repr : Val → String) (a : Attrs) (x : String) : ListAsStr repr (find a x) (find (mapAttrs (listToStr repr) a) x) := by
  unfold mapAttrs
  rw [find_mapVal]
  cases find a x with
  | none => exact .missing
  | some v =>
    cases v with
    | list xs => exact .list xs
    | atom y => exact .other _ (by simp)
    | set y => exact .other _ (by simp)
    | dict y => exact .other _ (by simp)

/-- **C46 (attriblist2str)**.  attriblist2str replaces every list among the node and edge attributes by its string representation and changes nothing else. -/
theorem c46_attriblist2str (repr : Val → String) (g : DG) :
    (∀ n, (g.attriblist2str repr).HasNode n ↔ g.HasNode n) ∧ (∀ u v k, (g.attriblist2str repr).HasEdge u v k ↔ g.HasEdge u v k) ∧
    (∀ n x, ListAsStr repr (g.nodeAttr n x) ((g.attriblist2str repr).nodeAttr n x)) ∧
    (∀ u v k x, ListAsStr repr (g.edgeAttr u v k x) ((g.attriblist2str repr).edgeAttr u v k x)) ∧ SameMeta g (g.attriblist2str repr) := by
  refine ⟨fun n => ?_, fun u v k => ?_, fun n x => ?_, fun u v k x => ?_, ⟨rfl, rfl, rfl, rfl, rfl, rfl, rfl⟩⟩
  · rw [hasNode_iff', hasNode_iff', nodeAttrs_attriblist2str]
    cases g.nodeAttrs n <;> simp
  · unfold HasEdge
    rw [edgeAttrs_attriblist2str]
    cases g.edgeAttrs u v k <;> simp
  · unfold nodeAttr
    rw [nodeAttrs_attriblist2str]
    cases g.nodeAttrs n with
    | none => exact .missing
    | some a => exact listAsStr_mapAttrs repr a x
  · unfold edgeAttr
    rw [edgeAttrs_attriblist2str]
    cases g.edgeAttrs u v k with
    | none => exact .missing
    | some a => exact listAsStr_mapAttrs repr a x

/-- the nodes `remove_root_metadata` looks at -/
def RootLike (g : DG) (n : NodeId) : Prop := n = g.root ∨ n = .str "discoursegraph:root_node" ∨ ∃ l, g.mergedRoots = some l ∧ n ∈ l

/-- exactly the attribute 'metadata' of the nodes in `P` is missing in `g'` -/
structure DropsMetadata (P : NodeId → Prop) (g g' : DG) : Prop where
  nodes : keys g'.nodes = keys g.nodes
  dropped : ∀ n, P n → g'.nodeAttr n "metadata" = none
  kept : ∀ n x, ¬ (P n ∧ x = "metadata") → g'.nodeAttr n x = g.nodeAttr n x
  edges : g'.adj = g.adj
  rest : SameMeta g g'

theorem popMetadata_spec {g : DG} {n : NodeId} (h : g.HasNode n) : ∃ g', g.popMetadata n = .ok g' ∧ DropsMetadata (· = n) g g' := by
  obtain ⟨a, ha⟩ := hasNode_iff'.1 h
  have ha' : find g.nodes n = some a := ha
  have hput : ∀ m, ({ g with nodes := put g.nodes n (del a "metadata") } : DG).nodeAttrs m = if n = m then some (del a "metadata") else g.nodeAttrs m := by
    intro m; unfold nodeAttrs; exact find_put _ _ _ _
  refine ⟨{ g with nodes := put g.nodes n (del a "metadata") }, by unfold popMetadata; rw [ha'], ⟨keys_put_of_mem _ _ _ h, ?_, ?_, rfl, ⟨rfl, rfl, rfl, rfl, rfl, rfl, rfl⟩⟩⟩
  · rintro m rfl
    unfold nodeAttr; rw [hput]; simp [find_del]
  · intro m x hx
    unfold nodeAttr
    rw [hput]
    by_cases hm : n = m
    · subst hm
      have : "metadata" ≠ x := fun h => hx ⟨rfl, h.symm⟩
      simp [find_del, this, ha]
    · simp [hm]

theorem popMetadataIfNode_spec (g : DG) (n : NodeId) : DropsMetadata (· = n) g (g.popMetadataIfNode n) := by
  by_cases h : g.HasNode n
  · obtain ⟨g', h1, h2⟩ := popMetadata_spec h
    unfold popMetadataIfNode; rw [h1]; exact h2
  · have hn : find g.nodes n = none := by
      cases hf : find g.nodes n with
      | none => rfl
      | some a => exact absurd (hasNode_iff'.2 ⟨a, hf⟩) h
    have : g.popMetadataIfNode n = g := by unfold popMetadataIfNode popMetadata; rw [hn]
    rw [this]
    refine ⟨rfl, ?_, fun _ _ _ => rfl, rfl, ⟨rfl, rfl, rfl, rfl, rfl, rfl, rfl⟩⟩
    rintro m rfl
    unfold nodeAttr nodeAttrs; rw [hn]; rfl

theorem DropsMetadata.trans {P Q : NodeId → Prop} {g g1 g2 : DG} (h1 : DropsMetadata P g g1) (h2 : DropsMetadata Q g1 g2) : DropsMetadata (fun n => P n ∨ Q n) g g2 := by
  refine ⟨h2.nodes.trans h1.nodes, ?_, ?_, h2.edges.trans h1.edges, ?_⟩
  · intro n hn
    by_cases hq : Q n
    · exact h2.dropped n hq
    · rw [h2.kept n _ (fun h => hq h.1)]
      exact h1.dropped n (hn.resolve_right hq)
  · intro n x hx
    rw [h2.kept n x (fun h => hx ⟨.inr h.1, h.2⟩), h1.kept n x (fun h => hx ⟨.inl h.1, h.2⟩)]
  · obtain ⟨a1, a2, a3, a4, a5, a6, a7⟩ := h2.rest
    obtain ⟨b1, b2, b3, b4, b5, b6, b7⟩ := h1.rest
    exact ⟨a1.trans b1, a2.trans b2, a3.trans b3, a4.trans b4, a5.trans b5, a6.trans b6, a7.trans b7⟩

theorem DropsMetadata.congr {P Q : NodeId → Prop} {g g' : DG} (h : DropsMetadata P g g') (hpq : ∀ n, P n ↔ Q n) : DropsMetadata Q g g' :=
  ⟨h.nodes, fun n hn => h.dropped n ((hpq n).2 hn), fun n x hx => h.kept n x (fun hp => hx ⟨(hpq n).1 hp.1, hp.2⟩), h.edges, h.rest⟩

theorem foldl_popMetadata_spec (l : List NodeId) : ∀ g : DG, DropsMetadata (· ∈ l) g (l.foldl popMetadataIfNode g) := by
  induction l with
  | nil => intro g; exact ⟨rfl, by simp, fun _ _ _ => rfl, rfl, ⟨rfl, rfl, rfl, rfl, rfl, rfl, rfl⟩⟩
  | cons n l ih =>
    intro g
    rw [List.foldl_cons]
    exact ((popMetadataIfNode_spec g n).trans (ih _)).congr (fun m => by simp)

/-- **C46 (remove_root_metadata)**.  If the root is a node, remove_root_metadata removes the attribute 'metadata' of the root, of a generic root node and of the roots
of merged graphs, and changes nothing else: no other attribute, no other node, no edge. -/
theorem c46_remove_root_metadata (g : DG) (h : g.HasNode g.root) : ∃ g', g.removeRootMetadata = .ok g' ∧ DropsMetadata g.RootLike g g' := by
  obtain ⟨g1, h1, h2⟩ := popMetadata_spec h
  have h3 := h2.trans (popMetadataIfNode_spec g1 (.str "discoursegraph:root_node"))
  have h4 := h3.trans (foldl_popMetadata_spec ((g1.popMetadataIfNode (.str "discoursegraph:root_node")).mergedRoots.getD []) _)
  refine ⟨_, by unfold removeRootMetadata; rw [h1]; rfl, h4.congr ?_⟩
  intro n
  have hm : (g1.popMetadataIfNode (.str "discoursegraph:root_node")).mergedRoots = g.mergedRoots := by
    obtain ⟨_, _, _, _, _, b6, b7⟩ := h3.rest
    first | exact b6 | exact b7
  rw [hm]
  unfold RootLike
  cases hr : g.mergedRoots with
  | none => simp [or_assoc]
  | some l => simp [or_assoc]

/-- Without its root node, the graph is refused (KeyError). -/
theorem c46_remove_root_metadata_needs_root (g : DG) (h : ¬ g.HasNode g.root) : g.removeRootMetadata = .error .key := by
  have hn : find g.nodes g.root = none := by
    cases hf : find g.nodes g.root with
    | none => rfl
    | some a => exact absurd (hasNode_iff'.2 ⟨a, hf⟩) h
  unfold removeRootMetadata popMetadata
  rw [hn]; rfl

/-- a document with a merged root, a list attribute and parallel edges -/
def exportDoc : DG := (init "" "a" (some (.str "r"))).run
  [.addNode (.str "t1") (.atom .none) .none [("x", .list [.str "p"])], .addNode (.str "m") (.set [.str "b", .str "a"]) .none [("metadata", .dict [])],
   .addEdge (.str "r") (.str "t1") (.atom .none) none .none [], .addEdge (.str "r") (.str "t1") (.atom .none) none .none [("y", .list [])],
   .addNode (.str "r") (.atom .none) .none [("metadata", .dict [("k", .str "v")])], .setMergedRoots [.str "m", .str "gone"]]

theorem exportDoc_reachable : Reachable exportDoc := ⟨"", "a", some (.str "r"), _, by decide, rfl⟩

instance (a : Attrs) : Decidable (∃ xs, find a "layers" = some (.set xs)) :=
  match h : find a "layers" with
  | some (.set xs) => isTrue ⟨xs, rfl⟩
  | some (.atom _) => isFalse (by simp)
  | some (.list _) => isFalse (by simp)
  | some (.dict _) => isFalse (by simp)
  | none => isFalse (by simp)

example : exportDoc.HasNode exportDoc.root ∧ exportDoc.edges.length = 2 ∧ ∃ g', exportDoc.removeRootMetadata = .ok g' ∧ g'.nodeAttr (.str "m") "metadata" = none ∧
    exportDoc.nodeAttr (.str "m") "metadata" = some (.dict []) := by
  refine ⟨by decide, by decide, _, rfl, by decide, by decide⟩

end DG
end Dg
