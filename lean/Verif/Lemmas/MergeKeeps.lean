import Verif.Lemmas.MergeReach

namespace Dg
open Dict
namespace DG

/-- the attribute `x` of the nodes in `T` keeps its value -/
def KeepsAttr (T : NodeId → Prop) (x : String) (g g' : DG) : Prop := ∀ t v, T t → g.nodeAttr t x = some v → g'.nodeAttr t x = some v

theorem KeepsAttr.refl (T : NodeId → Prop) (x : String) (g : DG) : KeepsAttr T x g g := fun _ _ _ h => h
theorem KeepsAttr.trans {T : NodeId → Prop} {x : String} {g1 g2 g3 : DG} (h : KeepsAttr T x g1 g2) (h' : KeepsAttr T x g2 g3) : KeepsAttr T x g1 g3 :=
  fun t v ht hv => h' t v ht (h t v ht hv)

theorem keepsAttr_of_nodeAttrs {T : NodeId → Prop} {x : String} {g g' : DG} (h : ∀ n a, g.nodeAttrs n = some a → g'.nodeAttrs n = some a) : KeepsAttr T x g g' := by
  intro t v _ hv
  unfold nodeAttr at hv ⊢
  cases ha : g.nodeAttrs t with
  | none => rw [ha] at hv; simp at hv
  | some a => rw [ha] at hv; rw [h t a ha]; exact hv

theorem nodeAttrs_addEdgeTuple {g : DG} (hi : Inv g) {ad : Attrs} (nda : (keys ad).Nodup) {it : EdgeItem} (hv : it.Valid) (n : NodeId) :
    (g.addEdgeTuple ad it).1.nodeAttrs n = g.nodeAttrs n ∨ (g.nodeAttrs n = none ∧ (g.addEdgeTuple ad it).1.nodeAttrs n = some [("layers", .set [.str g.ns])]) := by
  have key : ∀ u v k d, (keys d).Nodup → (g.addEdgeItem ad u v k d).1.nodeAttrs n = g.nodeAttrs n ∨
      (g.nodeAttrs n = none ∧ (g.addEdgeItem ad u v k d).1.nodeAttrs n = some [("layers", .set [.str g.ns])]) := by
    intro u v k d nd
    rcases addEdgeItem_view (g' := (g.addEdgeItem ad u v k d).1) (e := (g.addEdgeItem ad u v k d).2) hi nda nd rfl with
      ⟨_, h, _⟩ | ⟨_, k', a, layers, _, _, _, _, _, _, hn⟩
    · left; rw [h]
    · rw [hn]
      split
      · cases h : g.nodeAttrs n with
        | none => right; exact ⟨rfl, rfl⟩
        | some a => left; rfl
      · left; rfl
  cases it with
  | e3 u v d => exact key u v none d hv
  | e4 u v k d => exact key u v (some k) d hv
  | badLen => left; rfl

theorem nodeAttrs_addEdgesLoop {g : DG} (hi : Inv g) {ad : Attrs} (nda : (keys ad).Nodup) {its : List EdgeItem} (hv : ∀ it ∈ its, it.Valid) (n : NodeId) :
    (addEdgesLoop ad g its).1.nodeAttrs n = g.nodeAttrs n ∨
      (g.nodeAttrs n = none ∧ (addEdgesLoop ad g its).1.nodeAttrs n = some [("layers", .set [.str g.ns])]) := by
  refine (addEdgesLoop_induct (fun g' => Inv g' ∧ g'.ns = g.ns ∧ (g'.nodeAttrs n = g.nodeAttrs n ∨
    (g.nodeAttrs n = none ∧ g'.nodeAttrs n = some [("layers", .set [.str g.ns])]))) ad its ?_ g ⟨hi, rfl, Or.inl rfl⟩).2.2
  intro g1 it hm ⟨hi1, hns, hc⟩
  refine ⟨inv_addEdgeTuple hi1 nda (hv it hm), ?_, ?_⟩
  · rw [← hns]
    cases it with
    | e3 u v d => exact (sameMeta_addEdgeItem g1 ad u v none d).2.1
    | e4 u v k d => exact (sameMeta_addEdgeItem g1 ad u v (some k) d).2.1
    | badLen => rfl
  · rcases nodeAttrs_addEdgeTuple hi1 nda (hv it hm) n with h | ⟨h0, h⟩
    · rw [h]; exact hc
    · rw [hns] at h
      rcases hc with hc | hc
      · right; rw [hc] at h0; exact ⟨h0, h⟩
      · rw [hc.2] at h0; simp at h0

theorem keepsAttr_addOtherNodes {T : NodeId → Prop} {x : String} {other : DG} (ho : Inv other) (hx : x ≠ "layers") :
    ∀ {g : DG}, (∀ t v v', T t → g.nodeAttr t x = some v → other.nodeAttr t x = some v' → v' = v) →
    KeepsAttr T x g (g.addNodesFrom [] (other.nodes.map (fun p => NodeItem.tup p.1 p.2))).1 := by
  intro g hc
  refine addNodesFrom_induct (fun g' => KeepsAttr T x g g') [] _ ?_ g (KeepsAttr.refl _ _ _)
  intro g1 g2 it hm hh h
  obtain ⟨⟨n, d⟩, hp, rfl⟩ := List.mem_map.1 hm
  have hd : other.nodeAttrs n = some d := mem_find ho.wf.nodesNodup hp
  have ndd := ho.attrs.node n d hd
  intro t v ht hv
  have h1 := hh t v ht hv
  obtain ⟨ls, hls, hstr, (⟨hnew, rfl⟩ | ⟨old, ex, hold, hex, rfl⟩)⟩ := addNodeItem_tup_ok h
  · unfold nodeAttr at h1 ⊢
    rw [nodeAttrs_newNode]
    split
    · rename_i htn
      subst htn
      unfold nodeAttrs at h1
      rw [hnew] at h1; simp at h1
    · exact h1
  · unfold nodeAttr at h1 ⊢
    rw [nodeAttrs_putNodes]
    split
    · rename_i htn
      subst htn
      simp only [Option.bind_some, upd_nil]
      rw [find_put_ne _ _ (Ne.symm hx), find_upd _ (nodup_defaultLayers g1 ndd), find_defaultLayers_ne _ _ hx]
      unfold nodeAttrs at h1
      rw [hold] at h1
      simp only [Option.bind_some] at h1
      cases hdx : find d x with
      | none => simpa using h1
      | some w =>
        have : w = v := hc t v w ht hv (by unfold nodeAttr; rw [hd]; exact hdx)
        simp [this]
    · exact h1

theorem keepsAttr_setAttr {T : NodeId → Prop} {x : String} {g g' : DG} {n : NodeId} {k : String} {v : Val} (h : g.setAttr n k v = .ok g')
    (hc : k = x → g.nodeAttr n x = none) : KeepsAttr T x g g' := by
  intro t w _ hw
  rw [nodeAttr_setAttr h]
  split
  · rename_i hh
    obtain ⟨rfl, rfl⟩ := hh
    rw [hc rfl] at hw; simp at hw
  · exact hw

theorem keepsAttr_copyTokens {T : NodeId → Prop} {x : String} (other : DG) (l : List NodeId) :
    ∀ {g : DG}, KeepsAttr T x g (copyTokens other g l).1 := by
  induction l with
  | nil => intro g; exact KeepsAttr.refl _ _ _
  | cons n l ih =>
    intro g
    unfold copyTokens
    cases h : copyToken other g n with
    | error e => exact KeepsAttr.refl _ _ _
    | ok g' =>
      refine KeepsAttr.trans ?_ ih
      rcases copyToken_ok h with rfl | ⟨hl, tok, _, h⟩
      · exact KeepsAttr.refl _ _ _
      · refine keepsAttr_setAttr h ?_
        rintro rfl
        unfold nodeAttr
        cases ha : g.nodeAttrs n with
        | none => rfl
        | some a => rw [ha] at hl; exact hl

theorem keepsAttr_addEdgesFrom {T : NodeId → Prop} {x : String} {g : DG} (hi : Inv g) {its : List EdgeItem} (hv : ∀ it ∈ its, it.Valid) :
    KeepsAttr T x g (g.addEdgesFrom its .none []).1 := by
  apply keepsAttr_of_nodeAttrs
  intro n a ha
  rcases nodeAttrs_addEdgesLoop hi (ad := []) (by simp [keys]) hv n with h | h
  · unfold addEdgesFrom; rw [h]; exact ha
  · rw [ha] at h; simp at h

theorem keepsAttr_moveRootEdges {T : NodeId → Prop} {x : String} (es : List Edge) (hv : ∀ e ∈ es, (keys e.2.2.2).Nodup) :
    ∀ {g : DG}, Inv g → KeepsAttr T x g (moveRootEdges g es).1 := by
  induction es with
  | nil => intro g _; exact KeepsAttr.refl _ _ _
  | cons e es ih =>
    intro g hi
    unfold moveRootEdges
    split
    · exact KeepsAttr.refl _ _ _
    · rename_i g' hg'
      have nd1 : (keys ([] : Attrs)).Nodup := by simp [keys]
      have vad : AttrArg.Valid (.dict e.2.2.2) := hv e (by simp)
      refine KeepsAttr.trans (g2 := g') (keepsAttr_of_nodeAttrs ?_) (ih (fun e he => hv e (List.mem_cons_of_mem _ he)) (inv_addEdge hi nd1 vad hg'))
      intro n a ha
      rw [nodeAttrs_addEdge hi.wf nd1 vad hg']
      split
      · rw [ha]; rfl
      · exact ha

theorem nodeAttrs_copyLists (g other : DG) (n : NodeId) : (g.copyLists other).nodeAttrs n = g.nodeAttrs n := by
  unfold copyLists nodeAttrs
  simp only
  split <;> split <;> split <;> rfl

theorem keepsAttr_removeNode {T : NodeId → Prop} {x : String} {g g' : DG} (hi : Inv g) {n : NodeId} (hT : ¬ T n) (h : g.removeNode n = .ok g') : KeepsAttr T x g g' := by
  intro t v ht hv
  unfold nodeAttr at hv ⊢
  rw [(removeNode_ok hi h).2.2.1, if_neg]
  · exact hv
  · rintro rfl; exact hT ht

theorem keepsAttr_mergeRootnodes {T : NodeId → Prop} {x : String} {g other : DG} (hi : Inv g) (ho : Inv other) (hx : x ≠ "metadata") (hT : ¬ T other.root) :
    KeepsAttr T x g (g.mergeRootnodes other).1 := by
  unfold mergeRootnodes
  cases h1 : g.mergeMeta other with
  | error e => exact KeepsAttr.refl _ _ _
  | ok g1 =>
    have r1 : KeepsAttr T x g g1 ∧ Inv g1 := by
      rcases mergeMeta_ok h1 with rfl | ⟨v, h⟩
      · exact ⟨KeepsAttr.refl _ _ _, hi⟩
      · exact ⟨keepsAttr_setAttr h (fun h => absurd h.symm hx), inv_setAttr hi h⟩
    have hve : ∀ e ∈ other.outEdges other.root, (keys e.2.2.2).Nodup :=
      fun ⟨u, v, k, b⟩ he => ho.attrs.edge _ _ _ _ ((mem_outEdges ho.wf _ _ _ _ _).1 he).2
    simp only
    split
    · have r2 := keepsAttr_moveRootEdges (T := T) (x := x) (other.outEdges other.root) hve r1.2
      have ri := ran_moveRootEdges (g := g1) (other.outEdges other.root) hve
      split
      · rename_i g2 e h2
        rw [h2] at r2
        exact r1.1.trans r2
      · rename_i g2 h2
        rw [h2] at r2 ri
        cases h3 : g2.removeNode other.root with
        | error e => exact r1.1.trans r2
        | ok g3 => exact (r1.1.trans r2).trans (keepsAttr_removeNode (ri.inv r1.2) hT h3)
    · exact r1.1

theorem validOtherEdges {other : DG} (ho : Inv other) : ∀ it ∈ other.edges.map (fun e => EdgeItem.e3 e.1 e.2.1 e.2.2.2), it.Valid := by
  intro it hm
  obtain ⟨⟨u, v, k, a⟩, hp, rfl⟩ := List.mem_map.1 hm
  exact ho.attrs.edge u v k a ((mem_edges_iff ho.wf _ _ _ _).1 hp)

theorem keepsAttr_mergeRenamed {T : NodeId → Prop} {x : String} {g other : DG} (hi : Inv g) (ho : Inv other) (hx : x ≠ "metadata") (hx' : x ≠ "layers")
    (hT : ¬ T other.root) (hc : ∀ t v v', T t → g.nodeAttr t x = some v → other.nodeAttr t x = some v' → v' = v) :
    KeepsAttr T x g (g.mergeRenamed other).1 := by
  unfold mergeRenamed
  have r1 := ran_addOtherNodes (g := g) ho
  have k1 := keepsAttr_addOtherNodes ho hx' hc
  split
  · rename_i g1 e h1; rw [h1] at k1; exact k1
  · rename_i g1 h1; rw [h1] at r1 k1
    have r2 := ran_copyTokens other (keys other.nodes) (g := g1)
    have k2 := keepsAttr_copyTokens (T := T) (x := x) other (keys other.nodes) (g := g1)
    split
    · rename_i g2 e h2; rw [h2] at k2; exact k1.trans k2
    · rename_i g2 h2; rw [h2] at r2 k2
      have r3 := ran_addOtherEdges (g := g2) ho
      have k3 := keepsAttr_addEdgesFrom (T := T) (x := x) (r2.inv (r1.inv hi)) (validOtherEdges ho)
      split
      · rename_i g3 e h3; rw [h3] at k3; exact (k1.trans k2).trans k3
      · rename_i g3 h3; rw [h3] at r3 k3
        have hi3 := r3.inv (r2.inv (r1.inv hi))
        have k4 : KeepsAttr T x g3 (g3.copyLists other) := keepsAttr_of_nodeAttrs (by intro n a ha; rw [nodeAttrs_copyLists]; exact ha)
        exact (((k1.trans k2).trans k3).trans k4).trans (keepsAttr_mergeRootnodes ((ran_copyLists g3 other).inv hi3) ho hx hT)

/-! renaming creates no attributes -/

/-- no node has the attribute `x` -/
def NoAttr (x : String) (g : DG) : Prop := ∀ n, g.nodeAttr n x = none

theorem noAttr_relabelOne {x : String} {g : DG} (hi : Inv g) (hx : x ≠ "layers") (h : NoAttr x g) (old new : NodeId) : NoAttr x (g.relabelOne old new).1 := by
  unfold relabelOne
  split
  · exact h
  rename_i a ha
  have hax : find a x = none := by have := h old; unfold nodeAttr nodeAttrs at this; rw [ha] at this; exact this
  have nda := hi.attrs.node _ _ ha
  split
  · exact h
  rename_i layers _
  split
  · exact h
  rename_i g1 h1
  have hi1 := inv_addNode hi (by simp [keys]) (show AttrArg.Valid (.dict a) from nda) h1
  have hn1 : NoAttr x g1 := by
    intro n
    obtain ⟨ls, A, hls, hA, (⟨_, rfl⟩ | ⟨old', ex, hold, hex, rfl⟩)⟩ := addNode_ok h1
    · have hAx : find A x = none := by
        unfold mergeAttrArg at hA
        injection hA with hA
        rw [← hA]
        simp only [put, upd_cons, upd_nil]
        rw [find_put_ne _ _ (Ne.symm hx)]; exact hax
      unfold nodeAttr; rw [nodeAttrs_newNode]; split
      · exact hAx
      · exact h n
    · have hAx : find A x = none := by
        unfold mergeAttrArg at hA
        injection hA with hA
        rw [← hA]
        simp only [put, upd_cons, upd_nil]
        rw [find_put_ne _ _ (Ne.symm hx)]; exact hax
      have ndA : (keys A).Nodup := mergeAttrArg_nodup hA (by simp [keys]) nda
      unfold nodeAttr; rw [nodeAttrs_putNodes]; split
      · simp only [Option.bind_some]
        rw [find_put_ne _ _ (Ne.symm hx), find_upd _ (nodup_del ndA _), find_del, if_neg (Ne.symm hx), hAx]
        have := h new; unfold nodeAttr nodeAttrs at this; rw [hold] at this; simpa using this
      · exact h n
  split
  · exact hn1
  rename_i g2 h2
  obtain ⟨_, hi2, hn2, _⟩ := removeNode_ok hi1 h2
  have hn2' : NoAttr x g2 := by
    intro n; unfold nodeAttr; rw [hn2]; split
    · rfl
    · exact hn1 n
  intro n
  have hvs : ∀ it ∈ g1.newEdges old new, it.Valid := by
    intro it hm
    unfold newEdges at hm
    simp only [List.mem_append, List.mem_map] at hm
    rcases hm with ⟨⟨u, v, k, b⟩, he, rfl⟩ | ⟨⟨u, v, k, b⟩, he, rfl⟩
    · exact hi1.attrs.edge _ _ _ _ ((mem_outEdges hi1.wf _ _ _ _ _).1 he).2
    · exact hi1.attrs.edge _ _ _ _ ((mem_inEdges hi1.wf _ _ _ _ _).1 he).2
  unfold addEdgesFrom nodeAttr
  rcases nodeAttrs_addEdgesLoop hi2 (ad := []) (by simp [keys]) hvs n with h' | ⟨_, h'⟩
  · simp only [h']; exact hn2' n
  · simp only [h', Option.bind_some, find_cons, find_nil, if_neg (Ne.symm hx)]

theorem noAttr_relabelLoop {x : String} (hx : x ≠ "layers") (m : Dict NodeId NodeId) (l : List NodeId) :
    ∀ {g : DG}, Inv g → NoAttr x g → NoAttr x (relabelLoop m g l).1 := by
  induction l with
  | nil => intro g _ h; exact h
  | cons o l ih =>
    intro g hi h
    unfold relabelLoop
    split
    · exact ih hi h
    · rename_i new _
      have h1 := noAttr_relabelOne hi hx h o new
      have r1 := ran_relabelOne hi o new
      split
      · rename_i g' hg'
        rw [hg'] at h1 r1
        exact ih (r1.inv hi) h1
      · rename_i g' e hg'
        rw [hg'] at h1; exact h1

theorem noAttr_renameTokens {x : String} (hx : x ≠ "layers") {g : DG} (hi : Inv g) (h : NoAttr x g) (m : Dict NodeId NodeId) (s : Sched) : NoAttr x (g.renameTokens m s).1 := by
  unfold renameTokens
  have h1 : NoAttr x (g.relabelInplace m s.order).1 := by
    cases s.order with
    | none => exact h
    | some l => exact noAttr_relabelLoop hx m l hi h
  split
  · rename_i g' e hg'; rw [hg'] at h1; exact h1
  · rename_i g' hg'; rw [hg'] at h1
    split
    · exact h1
    · exact h1

/-! tokens and sentences -/

theorem lists_copyLists (g other : DG) :
    (g.copyLists other).tokens = (if g.tokens = [] then other.tokens else g.tokens) ∧
    (g.copyLists other).sentences = (if g.sentences = [] then other.sentences else g.sentences) := by
  unfold copyLists
  simp only
  constructor
  · by_cases h : g.tokens = []
    · by_cases h' : other.tokens = []
      · split <;> split <;> split <;> simp_all
      · split <;> split <;> split <;> simp_all
    · split <;> split <;> split <;> simp_all
  · by_cases h : g.sentences = []
    · by_cases h' : other.sentences = []
      · split <;> split <;> split <;> simp_all
      · split <;> split <;> split <;> simp_all
    · split <;> split <;> split <;> simp_all

/-- tokens and sentences are kept unless there were none -/
def KeepsLists (g g' : DG) : Prop := (g.tokens ≠ [] → g'.tokens = g.tokens) ∧ (g.sentences ≠ [] → g'.sentences = g.sentences)

theorem KeepsLists.trans {g1 g2 g3 : DG} (h : KeepsLists g1 g2) (h' : KeepsLists g2 g3) : KeepsLists g1 g3 :=
  ⟨fun hn => by rw [h'.1 (by rw [h.1 hn]; exact hn), h.1 hn], fun hn => by rw [h'.2 (by rw [h.2 hn]; exact hn), h.2 hn]⟩

theorem keepsLists_of_meta {g g' : DG} (h : SameMeta g g') : KeepsLists g g' := ⟨fun _ => h.2.2.2.1, fun _ => h.2.2.2.2.1⟩

theorem sameMeta_removeNode {g g' : DG} {n : NodeId} (h : g.removeNode n = .ok g') : SameMeta g g' := by
  unfold removeNode at h; split at h
  · injection h with h; subst h; exact ⟨rfl, rfl, rfl, rfl, rfl, rfl, rfl⟩
  · simp at h

theorem sameMeta_mergeRootnodes {g other : DG} (ho : Inv other) : SameMeta g (g.mergeRootnodes other).1 := by
  unfold mergeRootnodes
  cases h1 : g.mergeMeta other with
  | error e => exact SameMeta.refl g
  | ok g1 =>
    have r1 : SameMeta g g1 := by
      rcases mergeMeta_ok h1 with rfl | ⟨v, h⟩
      · exact SameMeta.refl _
      · exact (setAttr_frame h).2.2
    have hve : ∀ e ∈ other.outEdges other.root, (keys e.2.2.2).Nodup :=
      fun ⟨u, v, k, b⟩ he => ho.attrs.edge _ _ _ _ ((mem_outEdges ho.wf _ _ _ _ _).1 he).2
    simp only
    split
    · have ri := (ran_moveRootEdges (g := g1) (other.outEdges other.root) hve).sameMeta
      split
      · rename_i g2 e h2
        rw [h2] at ri
        exact r1.trans ri
      · rename_i g2 h2
        rw [h2] at ri
        cases h3 : g2.removeNode other.root with
        | error e => exact r1.trans ri
        | ok g3 => exact (r1.trans ri).trans (sameMeta_removeNode h3)
    · exact r1

theorem keepsLists_mergeRenamed {g other : DG} (ho : Inv other) : KeepsLists g (g.mergeRenamed other).1 := by
  unfold mergeRenamed
  have r1 := (ran_addOtherNodes (g := g) ho).sameMeta
  split
  · rename_i g1 e h1; rw [h1] at r1; exact keepsLists_of_meta r1
  · rename_i g1 h1; rw [h1] at r1
    have r2 := (ran_copyTokens other (keys other.nodes) (g := g1)).sameMeta
    split
    · rename_i g2 e h2; rw [h2] at r2; exact keepsLists_of_meta (r1.trans r2)
    · rename_i g2 h2; rw [h2] at r2
      have r3 := (ran_addOtherEdges (g := g2) ho).sameMeta
      split
      · rename_i g3 e h3; rw [h3] at r3; exact keepsLists_of_meta ((r1.trans r2).trans r3)
      · rename_i g3 h3; rw [h3] at r3
        refine (keepsLists_of_meta ((r1.trans r2).trans r3)).trans (KeepsLists.trans (g2 := g3.copyLists other) ?_ (keepsLists_of_meta (sameMeta_mergeRootnodes ho)))
        refine ⟨fun h => ?_, fun h => ?_⟩
        · rw [(lists_copyLists g3 other).1, if_neg h]
        · rw [(lists_copyLists g3 other).2, if_neg h]

theorem keepsLists_mergeGraphs {g other : DG} (ho : Inv other) (s : Sched) : KeepsLists g (g.mergeGraphs other s).1 := by
  unfold mergeGraphs
  simp only
  have h0 : KeepsLists g (g.noteRoot other) := ⟨fun _ => rfl, fun _ => rfl⟩
  split
  · exact h0
  · rename_i m hm
    have h1 : KeepsLists g ((g.noteRoot other).updRenamed m) := ⟨fun _ => rfl, fun _ => rfl⟩
    have r2 := ran_renameTokens ho m s
    split
    · exact h1
    · rename_i o' h2
      rw [h2] at r2
      exact h1.trans (keepsLists_mergeRenamed (r2.inv ho))

end DG
end Dg
