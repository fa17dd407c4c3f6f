import Verif.Lemmas.GraphOps

namespace Dg
open Dict

namespace DG

/-- all stored attribute dictionaries have unique keys -/
structure AttrsOK (g : DG) : Prop where
  node : ∀ n a, g.nodeAttrs n = some a → (keys a).Nodup
  edge : ∀ u v k a, g.edgeAttrs u v k = some a → (keys a).Nodup

/-- every edge has a non-empty set of strings as its layers -/
def EdgesLayered (g : DG) : Prop := ∀ u v k a, g.edgeAttrs u v k = some a → LayeredNE a

/-- The invariant every reachable graph satisfies. -/
structure Inv (g : DG) : Prop where
  wf : WF g
  attrs : AttrsOK g
  edges : EdgesLayered g

theorem edgeAttrs_of_kd? {g g' : DG} (h : ∀ u v, g'.kd? u v = g.kd? u v) (u v : NodeId) (k : Key) :
    g'.edgeAttrs u v k = g.edgeAttrs u v k := by unfold edgeAttrs; rw [h]

/-- view of the edges after replacing one edge's attributes -/
theorem edgeAttrs_of_put {g g' : DG} {u v : NodeId} {k : Key} {a : Attrs}
    (h : ∀ u' v', g'.kd? u' v' = if u' = u ∧ v' = v then some (put ((g.kd? u v).getD []) k a) else g.kd? u' v')
    (u' v' : NodeId) (k' : Key) :
    g'.edgeAttrs u' v' k' = if u' = u ∧ v' = v ∧ k' = k then some a else g.edgeAttrs u' v' k' := by
  unfold edgeAttrs
  rw [h]
  by_cases hu : u' = u ∧ v' = v
  · obtain ⟨rfl, rfl⟩ := hu
    simp only [and_self, true_and, if_true, Option.bind_some, find_put]
    by_cases hk : k' = k
    · simp [hk]
    · simp only [hk, Ne.symm hk, if_false]
      cases g.kd? u' v' <;> simp
  · have : ¬ (u' = u ∧ v' = v ∧ k' = k) := fun hh => hu ⟨hh.1, hh.2.1⟩
    simp [hu, this]

/-- node change only: edges part of the invariant -/
theorem inv_of_nodes {g g' : DG} (hi : Inv g) (hw : WF g') (hk : ∀ u v, g'.kd? u v = g.kd? u v)
    (hn : ∀ n a, g'.nodeAttrs n = some a → (keys a).Nodup) : Inv g' := by
  refine ⟨hw, ⟨hn, ?_⟩, ?_⟩
  · intro u v k a h; rw [edgeAttrs_of_kd? hk] at h; exact hi.attrs.edge u v k a h
  · intro u v k a h; rw [edgeAttrs_of_kd? hk] at h; exact hi.edges u v k a h

theorem nodeAttrs_newNode (g : DG) (n m : NodeId) (a : Attrs) :
    (g.newNode n a).nodeAttrs m = if m = n then some a else g.nodeAttrs m := by
  unfold nodeAttrs newNode
  simp only [find_put]
  by_cases h : m = n
  · simp [h]
  · simp [h, Ne.symm h]

theorem nodeAttrs_putNodes (g : DG) (n m : NodeId) (a : Attrs) :
    ({ g with nodes := put g.nodes n a } : DG).nodeAttrs m = if m = n then some a else g.nodeAttrs m := by
  unfold nodeAttrs
  simp only [find_put]
  by_cases h : m = n
  · simp [h]
  · simp [h, Ne.symm h]

theorem inv_addNode {g g' : DG} (hi : Inv g) {n : NodeId} {layers : Val} {ad : AttrArg} {attr : Attrs}
    (nda : (keys attr).Nodup) (vad : AttrArg.Valid ad)
    (h : g.addNode n layers ad attr = .ok g') : Inv g' := by
  refine inv_of_nodes hi (wf_addNode hi.wf h) (kd?_addNode hi.wf h) ?_
  obtain ⟨ls, A, _, hA, (⟨hn, rfl⟩ | ⟨old, ex, hold, _, rfl⟩)⟩ := addNode_ok h
  · intro m a hm
    rw [nodeAttrs_newNode] at hm
    split at hm
    · simp at hm; subst hm; exact mergeAttrArg_nodup hA nda vad
    · exact hi.attrs.node _ _ hm
  · intro m a hm
    rw [nodeAttrs_putNodes] at hm
    split at hm
    · simp at hm; subst hm
      exact nodup_put (nodup_upd (hi.attrs.node _ _ hold) _) _ _
    · exact hi.attrs.node _ _ hm

/-- Python-dict validity of an item -/
def NodeItem.Valid : NodeItem → Prop
  | .id _ => True
  | .tup _ d => (keys d).Nodup

theorem inv_addNodeItem {g g' : DG} (hi : Inv g) {attr : Attrs} {it : NodeItem}
    (nda : (keys attr).Nodup)
    (h : g.addNodeItem attr it = .ok g') : Inv g' := by
  refine inv_of_nodes hi (wf_addNodeItem hi.wf h) (kd?_addNodeItem hi.wf h) ?_
  cases it with
  | id n =>
    rcases addNodeItem_id_ok h with ⟨hn, rfl⟩ | ⟨old, hold, rfl⟩
    · intro m a hm
      rw [nodeAttrs_newNode] at hm
      split at hm
      · simp at hm; subst hm; exact nodup_put nda _ _
      · exact hi.attrs.node _ _ hm
    · intro m a hm
      rw [nodeAttrs_putNodes] at hm
      split at hm
      · simp at hm; subst hm
        exact nodup_upd (hi.attrs.node _ _ hold) _
      · exact hi.attrs.node _ _ hm
  | tup n d =>
    obtain ⟨ls, _, _, (⟨hn, rfl⟩ | ⟨old, ex, hold, _, rfl⟩)⟩ := addNodeItem_tup_ok h
    · intro m a hm
      rw [nodeAttrs_newNode] at hm
      split at hm
      · simp at hm; subst hm; exact nodup_upd nda _
      · exact hi.attrs.node _ _ hm
    · intro m a hm
      rw [nodeAttrs_putNodes] at hm
      split at hm
      · simp at hm; subst hm
        exact nodup_put (nodup_upd (nodup_upd (hi.attrs.node _ _ hold) _) _) _ _
      · exact hi.attrs.node _ _ hm

theorem inv_addNodesFrom {g : DG} (hi : Inv g) {attr : Attrs} (nda : (keys attr).Nodup) (its : List NodeItem) :
    Inv (g.addNodesFrom attr its).1 :=
  addNodesFrom_induct Inv attr its (fun _ _ _ _ hw h => inv_addNodeItem hw nda h) g hi

/-- generic: an edge (u,v,k) gets new attributes, endpoints are created -/
theorem inv_of_edge {g g' : DG} (hi : Inv g) (hw : WF g') {u v : NodeId} {k : Key} {a : Attrs}
    (hk : ∀ u' v', g'.kd? u' v' = if u' = u ∧ v' = v then some (put ((g.kd? u v).getD []) k a) else g.kd? u' v')
    (hn : ∀ n, g'.nodeAttrs n = if n = u ∨ n = v then some ((g.nodeAttrs n).getD [("layers", .set [.str g.ns])])
      else g.nodeAttrs n)
    (nda : (keys a).Nodup) (hl : LayeredNE a) : Inv g' := by
  refine ⟨hw, ⟨?_, ?_⟩, ?_⟩
  · intro n b hb
    rw [hn] at hb
    split at hb
    · cases hgn : g.nodeAttrs n with
      | none => rw [hgn] at hb; simp at hb; subst hb; simp [keys]
      | some c => rw [hgn] at hb; simp at hb; subst hb; exact hi.attrs.node _ _ hgn
    · exact hi.attrs.node _ _ hb
  · intro u' v' k' b hb
    rw [edgeAttrs_of_put hk] at hb
    split at hb
    · simp at hb; subst hb; exact nda
    · exact hi.attrs.edge _ _ _ _ hb
  · intro u' v' k' b hb
    rw [edgeAttrs_of_put hk] at hb
    split at hb
    · simp at hb; subst hb; exact hl
    · exact hi.edges _ _ _ _ hb

theorem oldAttrs_nodup {g : DG} (hi : Inv g) (u v : NodeId) (k : Key) :
    (keys ((find ((g.kd? u v).getD []) k).getD [])).Nodup := by
  cases hk : g.kd? u v with
  | none => simp [keys]
  | some kd =>
    simp only [Option.getD_some]
    cases ha : find kd k with
    | none => simp [keys]
    | some a => exact hi.attrs.edge u v k a (by unfold edgeAttrs; rw [hk]; exact ha)

/-- the layers stored in the edge so far (none if the edge does not exist) -/
theorem oldLayers {g : DG} (hi : Inv g) (u v : NodeId) (k : Key) :
    (g.edgeAttrs u v k = none ∧ find ((g.kd? u v).getD []) k = none) ∨
    ∃ a ex, g.edgeAttrs u v k = some a ∧ find ((g.kd? u v).getD []) k = some a ∧
      find a "layers" = some (.set ex) ∧ (∀ x ∈ ex, ∃ s, x = Atom.str s) ∧ ex ≠ [] := by
  unfold edgeAttrs
  cases hk : g.kd? u v with
  | none => left; simp
  | some kd =>
    simp only [Option.bind_some, Option.getD_some]
    cases ha : find kd k with
    | none => left; simp
    | some a =>
      right
      obtain ⟨xs, h1, h2, h3⟩ := hi.edges u v k a (by unfold edgeAttrs; rw [hk]; exact ha)
      exact ⟨a, xs, rfl, rfl, h1, h2, h3⟩

theorem setUnion_str {s t : List Atom} (hs : ∀ x ∈ s, ∃ y, x = Atom.str y) (ht : ∀ x ∈ t, ∃ y, x = Atom.str y) :
    ∀ x ∈ setUnion s t, ∃ y, x = Atom.str y := by
  intro x hx
  rcases (mem_setUnion _ _ _).1 hx with h | h
  · exact hs x h
  · exact ht x h

/-- View-level characterisation of a successful `add_edge`. -/
theorem addEdge_view {g g' : DG} (hi : Inv g) {u v : NodeId} {layers : Val} {key : Option Key} {ad : AttrArg}
    {attr : Attrs} (nda : (keys attr).Nodup) (vad : AttrArg.Valid ad)
    (h : g.addEdge u v layers key ad attr = .ok g') :
    ∃ ls k a, g.checkLayers layers = .ok ls ∧ k = key.getD (freshKey ((g.kd? u v).getD [])) ∧ ad ≠ .bad ∧
      Inv g' ∧
      (∀ u' v', g'.kd? u' v' = if u' = u ∧ v' = v then some (put ((g.kd? u v).getD []) k a) else g.kd? u' v') ∧
      (∀ x, x ≠ "layers" → find a x = ((find attr x).or (argFind ad x)).or (g.edgeAttr u v k x)) ∧
      (∃ L, find a "layers" = some (.set L) ∧ (∀ x ∈ L, ∃ s, x = Atom.str s) ∧
        ∀ l, l ∈ L ↔ g.EdgeLayer u v k l ∨ l ∈ ls) ∧
      (∀ n, g'.nodeAttrs n = if n = u ∨ n = v then some ((g.nodeAttrs n).getD [("layers", .set [.str g.ns])])
        else g.nodeAttrs n) := by
  obtain ⟨ls, A, ex, hls, hA, hex, hkd⟩ := kd?_addEdge hi.wf nda vad h
  have hwf := wf_addEdge hi.wf nda vad h
  have hn := nodeAttrs_addEdge hi.wf nda vad h
  have ndA := mergeAttrArg_nodup hA nda vad
  obtain ⟨hne, hstr, _⟩ := checkLayers_ok hls
  generalize hkk : key.getD (freshKey ((g.kd? u v).getD [])) = k at *
  let a := put (upd ((find ((g.kd? u v).getD []) k).getD []) A) "layers" (.set (setUnion ex ls))
  have exstr : ∀ x ∈ ex, ∃ s, x = Atom.str s := by
    rcases hex with ⟨_, rfl⟩ | hex
    · simp
    · rcases oldLayers hi u v k with ⟨_, h0⟩ | ⟨b, ex', _, h0, h1, h2, _⟩
      · rw [h0] at hex; simp at hex
      · rw [h0] at hex; simp [h1] at hex; subst hex; exact h2
  have hlay : find a "layers" = some (.set (setUnion ex ls)) := by simp [a]
  have hLNE : LayeredNE a := ⟨_, hlay, setUnion_str exstr hstr, setUnion_ne_nil_right _ hne⟩
  have nd_a : (keys a).Nodup := nodup_put (nodup_upd (oldAttrs_nodup hi u v k) _) _ _
  refine ⟨ls, k, a, hls, rfl, ?_, inv_of_edge hi hwf hkd hn nd_a hLNE, hkd, ?_, ?_, hn⟩
  · rintro rfl
    unfold mergeAttrArg at hA; simp at hA
  · intro x hx
    simp only [a]
    rw [find_put_ne _ _ (Ne.symm hx), find_upd _ ndA, mergeAttrArg_find hA nda hx]
    congr 1
    unfold edgeAttr edgeAttrs
    cases g.kd? u v with
    | none => simp
    | some kd => simp only [Option.getD_some, Option.bind_some]; cases find kd k <;> simp
  · refine ⟨_, hlay, setUnion_str exstr hstr, ?_⟩
    intro l
    rw [mem_setUnion]
    apply or_congr _ Iff.rfl
    unfold EdgeLayer AttrsLayer
    rcases oldLayers hi u v k with ⟨h0, h1⟩ | ⟨b, ex', h0, h1, h2, _, _⟩
    · rw [h1] at hex
      rw [h0]
      rcases hex with ⟨_, rfl⟩ | hex
      · simp
      · simp at hex
    · rw [h1] at hex
      rw [h0]
      simp only [Option.getD_some, h2] at hex
      rcases hex with ⟨hex, _⟩ | hex
      · simp at hex
      · injection hex with hex; injection hex with hex; subst hex; simp [h2]

theorem inv_addEdge {g g' : DG} (hi : Inv g) {u v : NodeId} {layers : Val} {key : Option Key} {ad : AttrArg}
    {attr : Attrs} (nda : (keys attr).Nodup) (vad : AttrArg.Valid ad)
    (h : g.addEdge u v layers key ad attr = .ok g') : Inv g' := by
  obtain ⟨_, _, _, _, _, _, hh, _⟩ := addEdge_view hi nda vad h
  exact hh

end DG
end Dg
