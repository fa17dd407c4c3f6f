import Verif.Lemmas.NodesLayered

namespace Dg
open Dict
namespace DG

theorem Keeps.refl (g : DG) : Keeps g g := ⟨fun _ h => h, fun _ _ _ h => h, fun _ _ _ _ h => h⟩
theorem Keeps.trans {g1 g2 g3 : DG} (h1 : Keeps g1 g2) (h2 : Keeps g2 g3) : Keeps g1 g3 :=
  ⟨fun n h => h2.nodes n (h1.nodes n h), fun u v k h => h2.edges u v k (h1.edges u v k h),
   fun u v k l h => h2.edgeLayers u v k l (h1.edgeLayers u v k l h)⟩

theorem hasNode_iff (g : DG) (n : NodeId) : g.HasNode n ↔ ∃ a, g.nodeAttrs n = some a := mem_keys_iff _ _

theorem keeps_of_nodes {g g' : DG} (hk : ∀ u v, g'.kd? u v = g.kd? u v)
    (hn : ∀ n, g.HasNode n → g'.HasNode n) : Keeps g g' := by
  refine ⟨hn, ?_, ?_⟩
  · intro u v k h; unfold HasEdge; rw [edgeAttrs_of_kd? hk]; exact h
  · intro u v k l h; unfold EdgeLayer; rw [edgeAttrs_of_kd? hk]; exact h

theorem keeps_of_edge {g g' : DG} {u v : NodeId} {k : Key} {a : Attrs}
    (hk : ∀ u' v', g'.kd? u' v' = if u' = u ∧ v' = v then some (put ((g.kd? u v).getD []) k a) else g.kd? u' v')
    (hn : ∀ n, g'.nodeAttrs n = if n = u ∨ n = v then some ((g.nodeAttrs n).getD [("layers", .set [.str g.ns])])
      else g.nodeAttrs n)
    (hl : ∀ l, g.EdgeLayer u v k l → AttrsLayer a l) : Keeps g g' ∧ KeepsNodeLayers g g' := by
  refine ⟨⟨?_, ?_, ?_⟩, ?_⟩
  · intro n h
    rw [hasNode_iff] at h ⊢
    obtain ⟨b, hb⟩ := h
    rw [hn]; split
    · exact ⟨_, rfl⟩
    · exact ⟨b, hb⟩
  · intro u' v' k' h
    unfold HasEdge at h ⊢
    rw [edgeAttrs_of_put hk]
    split
    · rfl
    · exact h
  · intro u' v' k' l h
    by_cases hc : u' = u ∧ v' = v ∧ k' = k
    · obtain ⟨rfl, rfl, rfl⟩ := hc
      exact ⟨a, by rw [edgeAttrs_of_put hk]; simp, hl l h⟩
    · obtain ⟨b, hb, hbl⟩ := h
      exact ⟨b, by rw [edgeAttrs_of_put hk, if_neg hc]; exact hb, hbl⟩
  · intro n l h
    obtain ⟨b, hb, hbl⟩ := h
    refine ⟨b, ?_, hbl⟩
    rw [hn]; split
    · simp [hb]
    · exact hb

theorem hasNode_newNode (g : DG) (n : NodeId) (a : Attrs) (m : NodeId) (h : g.HasNode m) : (g.newNode n a).HasNode m := by
  rw [hasNode_iff] at h ⊢
  rw [nodeAttrs_newNode]; split
  · exact ⟨_, rfl⟩
  · exact h

theorem hasNode_putNodes (g : DG) (n : NodeId) (a : Attrs) (m : NodeId) (h : g.HasNode m) :
    ({ g with nodes := put g.nodes n a } : DG).HasNode m := by
  rw [hasNode_iff] at h ⊢
  rw [nodeAttrs_putNodes]; split
  · exact ⟨_, rfl⟩
  · exact h

theorem nodeLayer_newNode {g : DG} {n : NodeId} {a : Attrs} (hn : find g.nodes n = none) : KeepsNodeLayers g (g.newNode n a) := by
  rintro m l ⟨b, hb, hbl⟩
  refine ⟨b, ?_, hbl⟩
  rw [nodeAttrs_newNode, if_neg]
  · exact hb
  · rintro rfl; unfold nodeAttrs at hb; rw [hn] at hb; simp at hb

theorem nodeLayer_putNodes {g : DG} {n : NodeId} {a old : Attrs} (hold : find g.nodes n = some old)
    (h : ∀ l, AttrsLayer old l → AttrsLayer a l) :
    KeepsNodeLayers g ({ g with nodes := put g.nodes n a } : DG) := by
  rintro m l ⟨b, hb, hbl⟩
  by_cases hm : m = n
  · subst hm
    have : b = old := by unfold nodeAttrs at hb; rw [hold] at hb; simp at hb; exact hb.symm
    subst this
    exact ⟨a, by rw [nodeAttrs_putNodes]; simp, h l hbl⟩
  · exact ⟨b, by rw [nodeAttrs_putNodes, if_neg hm]; exact hb, hbl⟩

theorem attrsLayer_union {old a : Attrs} {ex ls : List Atom} (hex : find old "layers" = some (.set ex))
    (ha : find a "layers" = some (.set (setUnion ex ls))) (l : Atom) (h : AttrsLayer old l) : AttrsLayer a l := by
  obtain ⟨xs, hx, hl⟩ := h
  rw [hex] at hx; injection hx with hx; injection hx with hx; subst hx
  exact ⟨_, ha, by simp [hl]⟩

theorem keeps_addNodeItem {g g' : DG} (hi : Inv g) {attr : Attrs} {it : NodeItem}
    (h : g.addNodeItem attr it = .ok g') :
    Keeps g g' ∧ ((∀ n, it = .id n → "layers" ∉ keys attr) → KeepsNodeLayers g g') := by
  have hk := kd?_addNodeItem hi.wf h
  cases it with
  | id n =>
    rcases addNodeItem_id_ok h with ⟨hnew, rfl⟩ | ⟨old, hold, rfl⟩
    · exact ⟨keeps_of_nodes hk (hasNode_newNode _ _ _), fun _ => nodeLayer_newNode hnew⟩
    · refine ⟨keeps_of_nodes hk (hasNode_putNodes _ _ _), fun hs => nodeLayer_putNodes hold ?_⟩
      rintro l ⟨xs, hx, hl⟩
      exact ⟨xs, by rw [find_upd_not_mem _ _ _ (hs n rfl)]; exact hx, hl⟩
  | tup n d =>
    obtain ⟨ls, hls, hstr, (⟨hnew, rfl⟩ | ⟨old, ex, hold, hex, rfl⟩)⟩ := addNodeItem_tup_ok h
    · exact ⟨keeps_of_nodes hk (hasNode_newNode _ _ _), fun _ => nodeLayer_newNode hnew⟩
    · exact ⟨keeps_of_nodes hk (hasNode_putNodes _ _ _),
        fun _ => nodeLayer_putNodes hold (attrsLayer_union hex (find_put_self _ _ _))⟩

theorem keeps_addEdgeItem {g : DG} (hi : Inv g) {ad : Attrs} (nda : (keys ad).Nodup) {u v : NodeId} {key : Option Key}
    {d : Attrs} (hv : (keys d).Nodup) :
    Keeps g (g.addEdgeItem ad u v key d).1 ∧ KeepsNodeLayers g (g.addEdgeItem ad u v key d).1 := by
  rcases addEdgeItem_view (g' := (g.addEdgeItem ad u v key d).1) (e := (g.addEdgeItem ad u v key d).2) hi nda hv rfl with
      ⟨_, h, _⟩ | ⟨_, k, a, layers, _, _, _, hk, _, ⟨L, hL, _, _, hin, _⟩, hn⟩
  · rw [h]; exact ⟨Keeps.refl g, fun _ _ h => h⟩
  · exact keeps_of_edge hk hn (fun l hl => ⟨L, hL, hin l (Or.inl hl)⟩)

theorem keeps_addEdgeTuple {g : DG} (hi : Inv g) {ad : Attrs} (nda : (keys ad).Nodup) {it : EdgeItem} (hv : it.Valid) :
    Keeps g (g.addEdgeTuple ad it).1 ∧ KeepsNodeLayers g (g.addEdgeTuple ad it).1 := by
  cases it with
  | e3 u v d => exact keeps_addEdgeItem hi nda hv
  | e4 u v k d => exact keeps_addEdgeItem hi nda hv
  | badLen => exact ⟨Keeps.refl g, fun _ _ h => h⟩

theorem keeps_addEdge {g g' : DG} (hi : Inv g) {u v : NodeId} {layers : Val} {key : Option Key} {ad : AttrArg}
    {attr : Attrs} (nda : (keys attr).Nodup) (vad : AttrArg.Valid ad)
    (h : g.addEdge u v layers key ad attr = .ok g') : Keeps g g' ∧ KeepsNodeLayers g g' := by
  obtain ⟨ls, k, a, _, _, _, _, hk, _, ⟨L, hL, _, hin⟩, hn⟩ := addEdge_view hi nda vad h
  exact keeps_of_edge hk hn (fun l hl => ⟨L, hL, (hin l).2 (Or.inl hl)⟩)

theorem keeps_prec (ts : List NodeId) :
    ∀ {g : DG}, Inv g → Keeps g (addPrecedenceLoop g ts).1 ∧ KeepsNodeLayers g (addPrecedenceLoop g ts).1 := by
  induction ts with
  | nil => intro g _; exact ⟨Keeps.refl g, fun _ _ h => h⟩
  | cons a ts ih =>
    intro g hi
    cases ts with
    | nil => exact ⟨Keeps.refl g, fun _ _ h => h⟩
    | cons b ts =>
      unfold addPrecedenceLoop
      split
      · rename_i g' hg'
        have h1 := keeps_addEdge (ad := .none) hi (by simp [keys]) trivial hg'
        have h2 := ih (inv_addPrecedenceEdge hi hg')
        exact ⟨h1.1.trans h2.1, fun n l h => h2.2 n l (h1.2 n l h)⟩
      · exact ⟨Keeps.refl g, fun _ _ h => h⟩

theorem keeps_setAttr {g g' : DG} {n : NodeId} {k : String} {v : Val} (hk : k ≠ "layers")
    (h : g.setAttr n k v = .ok g') : Keeps g g' ∧ KeepsNodeLayers g g' := by
  obtain ⟨f1, f2, f3⟩ := setAttr_frame h
  have hkd := kd?_adj f2
  refine ⟨keeps_of_nodes hkd ?_, ?_⟩
  · intro m hm; unfold HasNode at hm ⊢; rw [f1]; exact hm
  · rintro m l ⟨a, ha, xs, hx, hl⟩
    have h1 := layers_setAttr hk h m
    unfold nodeAttr at h1
    rw [ha] at h1
    simp only [Option.bind_some, hx] at h1
    cases hb : g'.nodeAttrs m with
    | none => rw [hb] at h1; simp at h1
    | some b => rw [hb] at h1; exact ⟨b, hb, xs, h1, hl⟩

theorem keeps_step {g : DG} (hi : Inv g) {op : Op} (hv : op.Valid) (hg : op.Grows) :
    Keeps g (g.step op).1 ∧ (op.SafeLayers → KeepsNodeLayers g (g.step op).1) := by
  have triv : Keeps g g ∧ KeepsNodeLayers g g := ⟨Keeps.refl g, fun _ _ h => h⟩
  cases op with
  | addNode n l ad at' =>
    simp only [step]
    cases h : g.addNode n l ad at' with
    | error e => exact ⟨triv.1, fun _ => triv.2⟩
    | ok g' =>
      have hk := kd?_addNode hi.wf h
      simp only [lift]
      obtain ⟨ls, A, hls, hA, (⟨hnew, rfl⟩ | ⟨old, ex, hold, hex, rfl⟩)⟩ := addNode_ok h
      · exact ⟨keeps_of_nodes hk (hasNode_newNode _ _ _), fun _ => nodeLayer_newNode hnew⟩
      · exact ⟨keeps_of_nodes hk (hasNode_putNodes _ _ _),
          fun _ => nodeLayer_putNodes hold (attrsLayer_union hex (find_put_self _ _ _))⟩
  | addNodesFrom its at' =>
    refine ⟨?_, ?_⟩
    · exact (addNodesFrom_induct (fun g' => Inv g' ∧ Keeps g g') at' its
        (fun g1 g2 it hm hh h => ⟨inv_addNodeItem hh.1 hv.1 h, hh.2.trans (keeps_addNodeItem hh.1 h).1⟩) g
        ⟨hi, triv.1⟩).2
    · intro hs
      exact (addNodesFrom_induct (fun g' => Inv g' ∧ KeepsNodeLayers g g') at' its
        (fun g1 g2 it hm hh h => ⟨inv_addNodeItem hh.1 hv.1 h, fun n l hl =>
          (keeps_addNodeItem hh.1 h).2 (fun n hid => hs ⟨n, hid ▸ hm⟩) n l (hh.2 n l hl)⟩) g
        ⟨hi, triv.2⟩).2
  | addEdge u v l k ad at' =>
    simp only [step]
    cases h : g.addEdge u v l k ad at' with
    | ok g' => have := keeps_addEdge hi hv.2 hv.1 h; exact ⟨this.1, fun _ => this.2⟩
    | error e => exact ⟨triv.1, fun _ => triv.2⟩
  | addEdgesFrom its ad at' =>
    simp only [step]
    rcases addEdgesFrom_eq (g := g) (its := its) (ad := ad) (attr := at') with ⟨_, h⟩ | ⟨A, h, hA⟩
    · rw [h]; exact ⟨triv.1, fun _ => triv.2⟩
    · rw [h]
      have ndA := (hA hv.1 hv.2.1).1
      have := (addEdgesLoop_induct (fun g' => Inv g' ∧ Keeps g g' ∧ KeepsNodeLayers g g') A its
        (fun g1 it hm hh => by
          have h1 := keeps_addEdgeTuple hh.1 ndA (hv.2.2 it hm)
          exact ⟨inv_addEdgeTuple hh.1 ndA (hv.2.2 it hm), hh.2.1.trans h1.1,
            fun n l hl => h1.2 n l (hh.2.2 n l hl)⟩) g ⟨hi, triv⟩).2
      exact ⟨this.1, fun _ => this.2⟩
  | addLayer e l =>
    simp only [step]
    cases l with
    | atom at' =>
      cases at' with
      | str s =>
        cases e with
        | edge u v =>
          rcases addLayer_edge hi u v s with ⟨_, h⟩ | ⟨kd, g', hkd, h, _, hnodes, hk⟩
          · rw [h]; exact ⟨triv.1, fun _ => triv.2⟩
          · rw [h]
            have hview : ∀ u' v' k' a, g.edgeAttrs u' v' k' = some a →
                g'.edgeAttrs u' v' k' = some a ∨ g'.edgeAttrs u' v' k' = some (withLayer s a) := by
              intro u' v' k' a ha
              unfold edgeAttrs at ha ⊢
              rw [hk]
              split
              · rename_i hh; obtain ⟨rfl, rfl⟩ := hh
                rw [hkd] at ha
                simp only [Option.bind_some] at ha ⊢
                rw [find_mapVal, ha]; right; rfl
              · left; exact ha
            refine ⟨⟨?_, ?_, ?_⟩, fun _ => ?_⟩
            · intro n hn; unfold HasNode; simp only [hnodes]; exact hn
            · intro u' v' k' he
              unfold HasEdge at he ⊢
              cases ha : g.edgeAttrs u' v' k' with
              | none => rw [ha] at he; simp at he
              | some a => rcases hview _ _ _ _ ha with h | h <;> simp [h]
            · rintro u' v' k' l ⟨a, ha, xs, hx, hl⟩
              rcases hview _ _ _ _ ha with h | h
              · exact ⟨a, h, xs, hx, hl⟩
              · exact ⟨_, h, _, (withLayer_spec hx).1, by simp [hl]⟩
            · intro n l hn
              unfold NodeLayer nodeAttrs at hn ⊢
              simp only [hnodes]; exact hn
        | node n =>
          unfold addLayer
          simp only
          split
          · exact ⟨triv.1, fun _ => triv.2⟩
          · rename_i attrs ha
            split
            · exact ⟨triv.1, fun _ => triv.2⟩
            · rename_i xs hxs
              refine ⟨keeps_of_nodes (fun _ _ => rfl) (hasNode_putNodes _ _ _), fun _ => nodeLayer_putNodes ha ?_⟩
              rintro l ⟨ys, hy, hl⟩
              have : ys = xs := by unfold layerSet at hxs; rw [hy] at hxs; simpa using hxs
              subst this
              exact ⟨_, find_put_self _ _ _, by simp [hl]⟩
      | _ => exact ⟨triv.1, fun _ => triv.2⟩
    | _ => exact ⟨triv.1, fun _ => triv.2⟩
  | removeNode n => exact hg.elim
  | addPrecedence =>
    simp only [step]
    unfold addPrecedenceRelations
    split
    · split
      · rename_i g' hg'
        have h1 := keeps_addEdge (ad := .none) hi (by simp [keys]) trivial hg'
        have h2 := fun ts => keeps_prec ts (inv_addPrecedenceEdge hi hg')
        exact ⟨h1.1.trans (h2 _).1, fun _ n l h => (h2 _).2 n l (h1.2 n l h)⟩
      · exact ⟨triv.1, fun _ => triv.2⟩
    · exact ⟨triv.1, fun _ => triv.2⟩
  | addOffsets ns =>
    have := addOffsets_induct (fun g' => Keeps g g' ∧ KeepsNodeLayers g g') ns
      (fun g1 g2 n k v hk h1 h2 => ⟨h1.1.trans (keeps_setAttr hk h2).1, fun n l h => (keeps_setAttr hk h2).2 n l (h1.2 n l h)⟩) g triv
    exact ⟨this.1, fun _ => this.2⟩
  | setAttr n k v =>
    simp only [step]
    cases h : g.setAttr n k v with
    | ok g' => exact ⟨(keeps_setAttr hv h).1, fun _ => (keeps_setAttr hv h).2⟩
    | error e => exact ⟨triv.1, fun _ => triv.2⟩
  | setTokens ts => exact ⟨⟨fun _ h => h, fun _ _ _ h => h, fun _ _ _ _ h => h⟩, fun _ _ _ h => h⟩
  | setSentences ts => exact ⟨⟨fun _ h => h, fun _ _ _ h => h, fun _ _ _ _ h => h⟩, fun _ _ _ h => h⟩
  | setName s => exact ⟨⟨fun _ h => h, fun _ _ _ h => h, fun _ _ _ _ h => h⟩, fun _ _ _ h => h⟩
  | setMergedRoots l => exact ⟨⟨fun _ h => h, fun _ _ _ h => h, fun _ _ _ _ h => h⟩, fun _ _ _ h => h⟩
  | setRenamed m => exact ⟨⟨fun _ h => h, fun _ _ _ h => h, fun _ _ _ _ h => h⟩, fun _ _ _ h => h⟩

end DG
end Dg
