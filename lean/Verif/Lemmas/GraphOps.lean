import Verif.Lemmas.Graph

namespace Dg
open Dict

namespace DG

/-! ### add_node -/

theorem addNode_ok {g g' : DG} {n : NodeId} {layers : Val} {ad : AttrArg} {attr : Attrs}
    (h : g.addNode n layers ad attr = .ok g') :
    ∃ ls A, g.checkLayers layers = .ok ls ∧ mergeAttrArg ad attr ls .assertion = .ok A ∧
      ((find g.nodes n = none ∧ g' = g.newNode n A) ∨
       (∃ old ex, find g.nodes n = some old ∧ find old "layers" = some (.set ex) ∧
          g' = { g with nodes := put g.nodes n (put (upd old (del A "layers")) "layers" (.set (setUnion ex ls))) })) := by
  unfold addNode at h
  simp only [bind, Except.bind] at h
  split at h
  · simp at h
  rename_i ls hls
  split at h
  · simp at h
  rename_i A hA
  refine ⟨ls, A, hls, hA, ?_⟩
  split at h
  · rename_i hn
    injection h with h
    exact Or.inl ⟨hn, h.symm⟩
  · rename_i old hold
    split at h
    · simp at h
    rename_i ex hex
    injection h with h
    refine Or.inr ⟨old, ex, hold, ?_, h.symm⟩
    unfold layerSet at hex
    split at hex <;> simp_all

theorem wf_addNode {g g' : DG} (wf : WF g) {n : NodeId} {layers : Val} {ad : AttrArg} {attr : Attrs}
    (h : g.addNode n layers ad attr = .ok g') : WF g' := by
  obtain ⟨ls, A, _, _, (⟨hn, rfl⟩ | ⟨old, ex, hold, _, rfl⟩)⟩ := addNode_ok h
  · exact wf_newNode wf ((find_eq_none_iff _ _).1 hn) _
  · exact wf_setAttrs wf ((mem_keys_iff _ _).2 ⟨_, hold⟩) _

theorem kd?_addNode {g g' : DG} (wf : WF g) {n : NodeId} {layers : Val} {ad : AttrArg} {attr : Attrs}
    (h : g.addNode n layers ad attr = .ok g') (u v : NodeId) : g'.kd? u v = g.kd? u v := by
  obtain ⟨ls, A, _, _, (⟨hn, rfl⟩ | ⟨old, ex, hold, _, rfl⟩)⟩ := addNode_ok h
  · exact kd?_newNode wf ((find_eq_none_iff _ _).1 hn) _ _ _
  · rfl

/-! ### add_nodes_from -/

theorem addNodeItem_tup_ok {g g' : DG} {attr : Attrs} {n : NodeId} {nd0 : Attrs}
    (h : g.addNodeItem attr (.tup n nd0) = .ok g') :
    ∃ ls, find (g.defaultLayers nd0) "layers" = some (.set ls) ∧ (∀ x ∈ ls, ∃ s, x = Atom.str s) ∧
      ((find g.nodes n = none ∧ g' = g.newNode n (upd attr (g.defaultLayers nd0))) ∨
       (∃ old ex, find g.nodes n = some old ∧ find old "layers" = some (.set ex) ∧
          g' = { g with nodes := put g.nodes n (put (upd (upd old (g.defaultLayers nd0)) attr) "layers" (.set (setUnion ex ls))) })) := by
  unfold addNodeItem at h
  simp only [bind, Except.bind] at h
  split at h
  · simp at h
  rename_i lv hlv
  split at h
  · simp at h
  rename_i ls hls
  obtain ⟨rfl, hstr⟩ := strSet_ok hls
  refine ⟨ls, layersEntry_ok hlv, hstr, ?_⟩
  split at h
  · rename_i hn
    injection h with h
    exact Or.inl ⟨hn, h.symm⟩
  · rename_i old hold
    split at h
    · simp at h
    rename_i ex hex
    injection h with h
    refine Or.inr ⟨old, ex, hold, ?_, h.symm⟩
    unfold layerSet at hex
    split at hex <;> simp_all

theorem addNodeItem_id_ok {g g' : DG} {attr : Attrs} {n : NodeId}
    (h : g.addNodeItem attr (.id n) = .ok g') :
      ((find g.nodes n = none ∧ g' = g.newNode n (put attr "layers" (.set g.nsLayers))) ∨
       (∃ old, find g.nodes n = some old ∧
          g' = { g with nodes := put g.nodes n (upd old attr) })) := by
  unfold addNodeItem at h
  simp only at h
  split at h
  · rename_i hn
    injection h with h
    exact Or.inl ⟨hn, h.symm⟩
  · rename_i old hold
    injection h with h
    exact Or.inr ⟨old, hold, h.symm⟩

theorem wf_addNodeItem {g g' : DG} (wf : WF g) {attr : Attrs} {it : NodeItem}
    (h : g.addNodeItem attr it = .ok g') : WF g' := by
  cases it with
  | id n =>
    rcases addNodeItem_id_ok h with ⟨hn, rfl⟩ | ⟨old, hold, rfl⟩
    · exact wf_newNode wf ((find_eq_none_iff _ _).1 hn) _
    · exact wf_setAttrs wf ((mem_keys_iff _ _).2 ⟨_, hold⟩) _
  | tup n d =>
    obtain ⟨ls, _, _, (⟨hn, rfl⟩ | ⟨old, ex, hold, _, rfl⟩)⟩ := addNodeItem_tup_ok h
    · exact wf_newNode wf ((find_eq_none_iff _ _).1 hn) _
    · exact wf_setAttrs wf ((mem_keys_iff _ _).2 ⟨_, hold⟩) _

theorem kd?_addNodeItem {g g' : DG} (wf : WF g) {attr : Attrs} {it : NodeItem}
    (h : g.addNodeItem attr it = .ok g') (u v : NodeId) : g'.kd? u v = g.kd? u v := by
  cases it with
  | id n =>
    rcases addNodeItem_id_ok h with ⟨hn, rfl⟩ | ⟨old, hold, rfl⟩
    · exact kd?_newNode wf ((find_eq_none_iff _ _).1 hn) _ _ _
    · rfl
  | tup n d =>
    obtain ⟨ls, _, _, (⟨hn, rfl⟩ | ⟨old, ex, hold, _, rfl⟩)⟩ := addNodeItem_tup_ok h
    · exact kd?_newNode wf ((find_eq_none_iff _ _).1 hn) _ _ _
    · rfl

/-- induction principle for `add_nodes_from` -/
theorem addNodesFrom_induct (P : DG → Prop) (attr : Attrs) (its : List NodeItem)
    (hstep : ∀ g g' it, it ∈ its → P g → g.addNodeItem attr it = .ok g' → P g') :
    ∀ g, P g → P (g.addNodesFrom attr its).1 := by
  induction its with
  | nil => intro g h; exact h
  | cons it its ih =>
    intro g h
    unfold addNodesFrom
    split
    · rename_i g' hg'
      exact ih (fun g g' it2 hm => hstep g g' it2 (List.mem_cons_of_mem _ hm)) g'
        (hstep g g' it (by simp) h hg')
    · exact h

theorem wf_addNodesFrom {g : DG} (wf : WF g) (attr : Attrs) (its : List NodeItem) :
    WF (g.addNodesFrom attr its).1 :=
  addNodesFrom_induct WF attr its (fun _ _ _ _ hw h => wf_addNodeItem hw h) g wf

theorem kd?_addNodesFrom {g : DG} (wf : WF g) (attr : Attrs) (its : List NodeItem) (u v : NodeId) :
    (g.addNodesFrom attr its).1.kd? u v = g.kd? u v :=
  (addNodesFrom_induct (fun g' => WF g' ∧ g'.kd? u v = g.kd? u v) attr its
    (fun _ _ _ _ hw h => ⟨wf_addNodeItem hw.1 h, by rw [kd?_addNodeItem hw.1 h]; exact hw.2⟩) g ⟨wf, rfl⟩).2

/-! ### add_edge -/

theorem layersOfDict_ok {dd : Attrs} {ex : List Atom}
    (h : layersOrEmpty dd = Except.ok ex) :
    (find dd "layers" = none ∧ ex = []) ∨ find dd "layers" = some (.set ex) := by
  unfold layersOrEmpty at h
  split at h <;> simp_all

/-- normal form of a successful `add_edge`: new-edge and existing-edge cases in one equation -/
theorem addEdge_ok {g g' : DG} (wf : WF g) {u v : NodeId} {layers : Val} {key : Option Key} {ad : AttrArg}
    {attr : Attrs} (nda : (keys attr).Nodup) (vad : AttrArg.Valid ad)
    (h : g.addEdge u v layers key ad attr = .ok g') :
    ∃ ls A ex, g.checkLayers layers = .ok ls ∧ mergeAttrArg ad attr ls .attribute = .ok A ∧
      (let kd := (g.kd? u v).getD []
       let k := key.getD (freshKey kd)
       let old := (find kd k).getD []
       ((find old "layers" = none ∧ ex = []) ∨ find old "layers" = some (.set ex)) ∧
       g' = ((g.ensureNode u).ensureNode v).putKeyDict u v
          (put kd k (put (upd old A) "layers" (.set (setUnion ex ls))))) := by
  unfold addEdge at h
  simp only [bind, Except.bind] at h
  split at h
  · simp at h
  rename_i ls hls
  split at h
  · simp at h
  rename_i A hA
  have hkd : (find ((g.ensureNode u).ensureNode v).adj u).bind (find · v) = g.kd? u v := by
    have := kd?_ensureNode (wf_ensureNode wf u) v u v
    rw [kd?_ensureNode wf] at this
    exact this
  rw [hkd] at h
  split at h
  · rename_i kd hk
    split at h
    · simp at h
    rename_i ex hex
    injection h with h
    refine ⟨ls, A, ex, hls, hA, ?_⟩
    simp only [hk, Option.getD_some]
    exact ⟨layersOfDict_ok hex, h.symm⟩
  · rename_i hk
    injection h with h
    refine ⟨ls, A, [], hls, hA, ?_⟩
    simp only [hk, Option.getD_none, find_nil, freshKey_nil]
    refine ⟨Or.inl (by simp), ?_⟩
    rw [← h]
    congr 1
    simp only [put]
    have : find (upd ([] : Attrs) A) "layers" = some (.set ls) := by
      rw [find_upd _ (mergeAttrArg_nodup hA nda vad)]
      simp [mergeAttrArg_layers hA nda]
    have hu : setUnion ([] : List Atom) ls = ls := by simp [setUnion]
    rw [hu, put_find_self this]

theorem ensure2_mem (g : DG) (u v : NodeId) :
    u ∈ keys ((g.ensureNode u).ensureNode v).nodes ∧ v ∈ keys ((g.ensureNode u).ensureNode v).nodes := by
  constructor
  · rw [mem_keys_ensureNode, mem_keys_ensureNode]; simp
  · rw [mem_keys_ensureNode]; simp

theorem putKd_nodup {g : DG} (wf : WF g) (u v : NodeId) (k : Key) (a : Attrs) :
    (keys (put ((g.kd? u v).getD []) k a)).Nodup := by
  apply nodup_put
  cases h : g.kd? u v with
  | none => simp [keys]
  | some kd => exact wf.kdNodup _ _ _ h

theorem put_ne_nil {K V : Type} [DecidableEq K] (d : Dict K V) (k : K) (v : V) : put d k v ≠ [] := by
  intro h
  have := find_put_self d k v
  rw [h] at this; simp at this

theorem wf_addEdge {g g' : DG} (wf : WF g) {u v : NodeId} {layers : Val} {key : Option Key} {ad : AttrArg}
    {attr : Attrs} (nda : (keys attr).Nodup) (vad : AttrArg.Valid ad)
    (h : g.addEdge u v layers key ad attr = .ok g') : WF g' := by
  obtain ⟨ls, A, ex, _, _, _, rfl⟩ := addEdge_ok wf nda vad h
  have := ensure2_mem g u v
  exact wf_putKeyDict (wf_ensureNode (wf_ensureNode wf u) v) this.1 this.2 (putKd_nodup wf _ _ _ _) (put_ne_nil _ _ _)

theorem kd?_addEdge {g g' : DG} (wf : WF g) {u v : NodeId} {layers : Val} {key : Option Key} {ad : AttrArg}
    {attr : Attrs} (nda : (keys attr).Nodup) (vad : AttrArg.Valid ad)
    (h : g.addEdge u v layers key ad attr = .ok g') :
    ∃ ls A ex, g.checkLayers layers = .ok ls ∧ mergeAttrArg ad attr ls .attribute = .ok A ∧
      (let kd := (g.kd? u v).getD []
       let k := key.getD (freshKey kd)
       let old := (find kd k).getD []
       ((find old "layers" = none ∧ ex = []) ∨ find old "layers" = some (.set ex)) ∧
       ∀ u' v', g'.kd? u' v' = if u' = u ∧ v' = v then
          some (put kd k (put (upd old A) "layers" (.set (setUnion ex ls)))) else g.kd? u' v') := by
  obtain ⟨ls, A, ex, h1, h2, h3, rfl⟩ := addEdge_ok wf nda vad h
  refine ⟨ls, A, ex, h1, h2, h3, ?_⟩
  intro u' v'
  have hw := wf_ensureNode (wf_ensureNode wf u) v
  rw [kd?_putKeyDict (by rw [hw.adjKeys]; exact (ensure2_mem g u v).1)]
  rw [kd?_ensureNode (wf_ensureNode wf u), kd?_ensureNode wf]

theorem nodeAttrs_addEdge {g g' : DG} (wf : WF g) {u v : NodeId} {layers : Val} {key : Option Key} {ad : AttrArg}
    {attr : Attrs} (nda : (keys attr).Nodup) (vad : AttrArg.Valid ad)
    (h : g.addEdge u v layers key ad attr = .ok g') (n : NodeId) :
    g'.nodeAttrs n = if n = u ∨ n = v then some ((g.nodeAttrs n).getD [("layers", .set [.str g.ns])])
      else g.nodeAttrs n := by
  obtain ⟨ls, A, ex, h1, h2, h3, rfl⟩ := addEdge_ok wf nda vad h
  unfold nodeAttrs
  rw [nodes_putKeyDict]
  have := nodeAttrs_ensureNode (g.ensureNode u) v n
  unfold nodeAttrs at this
  rw [this]
  have h1 := nodeAttrs_ensureNode g u n
  have h2 := nodeAttrs_ensureNode g u v
  unfold nodeAttrs at h1 h2
  by_cases hv : n = v
  · subst hv
    simp only [or_true, if_true, ns_ensureNode]
    rw [h1]
    by_cases hu : n = u
    · subst hu; simp
    · simp [hu]
  · by_cases hu : n = u
    · subst hu
      simp [hv, h1]
    · simp [hv, hu, h1]

/-- an `add_edge` call fails only for an invalid argument, unless the stored edge is corrupt -/
theorem addEdge_isOk {g : DG} (wf : WF g) {u v : NodeId} {layers : Val} {key : Option Key} {ad : AttrArg}
    {attr : Attrs} {ls : List Atom} (hl : g.checkLayers layers = .ok ls) (had : ad ≠ .bad)
    (hlay : ∀ u v k a, g.edgeAttrs u v k = some a → ∃ xs, find a "layers" = some (.set xs)) :
    ∃ g', g.addEdge u v layers key ad attr = .ok g' := by
  have hA : ∃ A, mergeAttrArg ad attr ls .attribute = .ok A := by
    unfold mergeAttrArg
    cases ad <;> simp at had ⊢
  obtain ⟨A, hA⟩ := hA
  unfold addEdge
  simp only [bind, Except.bind, hl, hA]
  have hkd : (find ((g.ensureNode u).ensureNode v).adj u).bind (find · v) = g.kd? u v := by
    have := kd?_ensureNode (wf_ensureNode wf u) v u v
    rw [kd?_ensureNode wf] at this
    exact this
  rw [hkd]
  cases hk : g.kd? u v with
  | none => exact ⟨_, rfl⟩
  | some kd =>
    simp only
    cases ha : find kd (key.getD (freshKey kd)) with
    | none => simp [layersOrEmpty]
    | some a =>
      obtain ⟨xs, hxs⟩ := hlay u v (key.getD (freshKey kd)) a (by unfold edgeAttrs; rw [hk]; exact ha)
      simp [hxs, layersOrEmpty]

end DG
end Dg
