import Verif.Lemmas.GraphStep
import Verif.Spec.Layers

namespace Dg
open Dict
namespace DG

theorem layeredB_true (a : Attrs) : LayeredB True a ↔ LayeredNE a := by simp [LayeredB, LayeredNE]
theorem layeredB_false (a : Attrs) : LayeredB False a ↔ Layered a := by simp [LayeredB, Layered]

theorem nodesLayered_addNode {ne : Prop} {g g' : DG} (hn : NodesLayered ne g) {n : NodeId} {layers : Val} {ad : AttrArg}
    {attr : Attrs} (nda : (keys attr).Nodup)
    (h : g.addNode n layers ad attr = .ok g') : NodesLayered ne g' := by
  obtain ⟨ls, A, hls, hA, (⟨_, rfl⟩ | ⟨old, ex, hold, hex, rfl⟩)⟩ := addNode_ok h
  all_goals obtain ⟨hne, hstr, _⟩ := checkLayers_ok hls
  · intro m a hm
    rw [nodeAttrs_newNode] at hm
    split at hm
    · simp at hm; subst hm
      exact ⟨ls, mergeAttrArg_layers hA nda, hstr, fun _ => hne⟩
    · exact hn m a hm
  · intro m a hm
    rw [nodeAttrs_putNodes] at hm
    split at hm
    · simp at hm; subst hm
      obtain ⟨xs, h1, h2, _⟩ := hn n old hold
      rw [hex] at h1; injection h1 with h1; injection h1 with h1; subst h1
      exact ⟨_, find_put_self _ _ _, setUnion_str h2 hstr, fun _ => setUnion_ne_nil_right _ hne⟩
    · exact hn m a hm

theorem nodesLayered_addNodeItem {ne : Prop} {g g' : DG} (hn : NodesLayered ne g) {attr : Attrs}
    {it : NodeItem} (hv : it.Valid)
    (hsafe : ∀ n, it = .id n → "layers" ∉ keys attr)
    (hne : ne → ∀ n d, it = .tup n d → find d "layers" ≠ some (.set []))
    (h : g.addNodeItem attr it = .ok g') : NodesLayered ne g' := by
  cases it with
  | id n =>
    rcases addNodeItem_id_ok h with ⟨hnew, rfl⟩ | ⟨old, hold, rfl⟩
    · intro m a hm
      rw [nodeAttrs_newNode] at hm
      split at hm
      · simp at hm; subst hm
        exact ⟨_, find_put_self _ _ _, by simp [nsLayers], by simp [nsLayers]⟩
      · exact hn m a hm
    · intro m a hm
      rw [nodeAttrs_putNodes] at hm
      split at hm
      · simp at hm; subst hm
        obtain ⟨xs, h1, h2, h3⟩ := hn n old hold
        exact ⟨xs, by rw [find_upd_not_mem _ _ _ (hsafe n rfl)]; exact h1, h2, h3⟩
      · exact hn m a hm
  | tup n d =>
    obtain ⟨ls, hls, hstr, (⟨hnew, rfl⟩ | ⟨old, ex, hold, hex, rfl⟩)⟩ := addNodeItem_tup_ok h
    · intro m a hm
      rw [nodeAttrs_newNode] at hm
      split at hm
      · simp at hm; subst hm
        refine ⟨ls, ?_, hstr, ?_⟩
        · rw [find_upd _ (nodup_defaultLayers g hv), hls]; simp
        · intro hne'
          rw [find_defaultLayers] at hls
          rintro rfl
          have := hne hne' n d rfl
          cases hf : find d "layers" with
          | none => rw [hf] at hls; simp at hls
          | some v => rw [hf] at hls; simp at hls; subst hls; exact this hf
      · exact hn m a hm
    · intro m a hm
      rw [nodeAttrs_putNodes] at hm
      split at hm
      · simp at hm; subst hm
        obtain ⟨xs, h1, h2, h3⟩ := hn n old hold
        rw [hex] at h1; injection h1 with h1; injection h1 with h1; subst h1
        exact ⟨_, find_put_self _ _ _, setUnion_str h2 hstr, fun hne' => setUnion_ne_nil_left _ (h3 hne')⟩
      · exact hn m a hm

/-- endpoints created by edge insertions are layered -/
theorem nodesLayered_of_ensure {ne : Prop} {g g' : DG} (hn : NodesLayered ne g) {u v : NodeId}
    (h : ∀ n, g'.nodeAttrs n = if n = u ∨ n = v then some ((g.nodeAttrs n).getD [("layers", .set [.str g.ns])])
        else g.nodeAttrs n) : NodesLayered ne g' := by
  intro n a ha
  rw [h] at ha
  split at ha
  · cases hg : g.nodeAttrs n with
    | none => rw [hg] at ha; simp at ha; subst ha; exact ⟨[.str g.ns], by simp, by simp, by simp⟩
    | some b => rw [hg] at ha; simp at ha; subst ha; exact hn _ _ hg
  · exact hn _ _ ha

theorem nodesLayered_addEdgeTuple {ne : Prop} {g : DG} (hi : Inv g) (hn : NodesLayered ne g) {ad : Attrs}
    (nda : (keys ad).Nodup) {it : EdgeItem} (hv : it.Valid) : NodesLayered ne (g.addEdgeTuple ad it).1 := by
  cases it with
  | e3 u v d =>
    rcases addEdgeItem_view (g' := (g.addEdgeItem ad u v none d).1) (e := (g.addEdgeItem ad u v none d).2) hi nda hv rfl with
      ⟨_, h, _⟩ | ⟨_, k, a, layers, _, _, _, _, _, _, h⟩
    · simp only [addEdgeTuple]; rw [h]; exact hn
    · exact nodesLayered_of_ensure hn h
  | e4 u v k d =>
    rcases addEdgeItem_view (g' := (g.addEdgeItem ad u v (some k) d).1) (e := (g.addEdgeItem ad u v (some k) d).2) hi nda hv rfl with
      ⟨_, h, _⟩ | ⟨_, k, a, layers, _, _, _, _, _, _, h⟩
    · simp only [addEdgeTuple]; rw [h]; exact hn
    · exact nodesLayered_of_ensure hn h
  | badLen => exact hn

theorem nodesLayered_prec {ne : Prop} (ts : List NodeId) :
    ∀ {g : DG}, Inv g → NodesLayered ne g → NodesLayered ne (addPrecedenceLoop g ts).1 := by
  induction ts with
  | nil => intro g _ hn; exact hn
  | cons a ts ih =>
    intro g hi hn
    cases ts with
    | nil => exact hn
    | cons b ts =>
      unfold addPrecedenceLoop
      split
      · rename_i g' hg'
        obtain ⟨_, _, _, _, _, _, hi', _, _, _, hnn⟩ := addEdge_view (ad := .none) hi (by simp [keys]) trivial hg'
        exact ih hi' (nodesLayered_of_ensure hn hnn)
      · exact hn

theorem nodesLayered_setAttr {ne : Prop} {g g' : DG} {n : NodeId} {k : String} {v : Val} (hk : k ≠ "layers") (hn : NodesLayered ne g)
    (h : g.setAttr n k v = .ok g') : NodesLayered ne g' := by
  intro m a ha
  have h1 := layers_setAttr hk h m
  have h2 : ∃ b, g.nodeAttrs m = some b := by
    have : m ∈ keys g'.nodes := (mem_keys_iff _ _).2 ⟨a, ha⟩
    rw [(setAttr_frame h).1] at this
    exact (mem_keys_iff _ _).1 this
  obtain ⟨b, hb⟩ := h2
  unfold nodeAttr at h1
  rw [ha, hb] at h1
  obtain ⟨xs, e1, e2⟩ := hn m b hb
  exact ⟨xs, h1.trans e1, e2⟩

theorem nodesLayered_step {ne : Prop} {g : DG} (hi : Inv g) (hn : NodesLayered ne g) {op : Op} (hv : op.Valid)
    (hs : op.SafeLayers) (hne : ne → op.NonEmptyLayers) : NodesLayered ne (g.step op).1 := by
  cases op with
  | addNode n l ad at' =>
    simp only [step]
    cases h : g.addNode n l ad at' with
    | ok g' => exact nodesLayered_addNode hn hv.2 h
    | error e => exact hn
  | addNodesFrom its at' =>
    exact addNodesFrom_induct (NodesLayered ne) at' its (fun g g' it hm hn h =>
      nodesLayered_addNodeItem hn (hv.2 it hm) (fun n hid => hs ⟨n, hid ▸ hm⟩)
        (fun hne' n d hd => hne hne' n d (hd ▸ hm)) h) g hn
  | addEdge u v l k ad at' =>
    simp only [step]
    cases h : g.addEdge u v l k ad at' with
    | ok g' =>
      obtain ⟨_, _, _, _, _, _, _, _, _, _, hnn⟩ := addEdge_view hi hv.2 hv.1 h
      exact nodesLayered_of_ensure hn hnn
    | error e => exact hn
  | addEdgesFrom its ad at' =>
    simp only [step]
    rcases addEdgesFrom_eq (g := g) (its := its) (ad := ad) (attr := at') with ⟨_, h⟩ | ⟨A, h, hA⟩
    · rw [h]; exact hn
    · rw [h]
      have ndA := (hA hv.1 hv.2.1).1
      exact (addEdgesLoop_induct (fun g => Inv g ∧ NodesLayered ne g) A its
        (fun g it hm hh => ⟨inv_addEdgeTuple hh.1 ndA (hv.2.2 it hm),
          nodesLayered_addEdgeTuple hh.1 hh.2 ndA (hv.2.2 it hm)⟩) g ⟨hi, hn⟩).2
  | addLayer e l =>
    simp only [step]
    cases e with
    | edge u v =>
      have : (g.addLayer (.edge u v) l).1.nodes = g.nodes := by
        unfold addLayer
        split
        · simp only
          split
          · rfl
          · simp
        · rfl
      intro n a ha
      unfold nodeAttrs at ha; rw [this] at ha; exact hn n a ha
    | node n =>
      unfold addLayer
      split
      · rename_i l
        simp only
        split
        · exact hn
        · rename_i attrs ha
          split
          · exact hn
          · rename_i xs hxs
            intro m a hma
            rw [nodeAttrs_putNodes] at hma
            split at hma
            · simp at hma; subst hma
              obtain ⟨ys, h1, h2, h3⟩ := hn n attrs ha
              have : xs = ys := by unfold layerSet at hxs; rw [h1] at hxs; simp at hxs; exact hxs.symm
              subst this
              refine ⟨_, find_put_self _ _ _, ?_, ?_⟩
              · intro x hx
                rcases (mem_setAdd _ _ _).1 hx with hx | hx
                · exact h2 x hx
                · exact ⟨l, hx⟩
              · intro _ h0
                have : Atom.str l ∈ setAdd xs (.str l) := by simp
                rw [h0] at this; simp at this
            · exact hn m a hma
      · exact hn
  | removeNode n =>
    simp only [step]
    cases h : g.removeNode n with
    | ok g' =>
      intro m a hm
      simp only [lift] at hm
      rw [(removeNode_ok hi h).2.2.1] at hm
      split at hm
      · simp at hm
      · exact hn m a hm
    | error e => exact hn
  | addPrecedence =>
    simp only [step]
    unfold addPrecedenceRelations
    split
    · split
      · rename_i g' hg'
        obtain ⟨_, _, _, _, _, _, hi', _, _, _, hnn⟩ := addEdge_view (ad := .none) hi (by simp [keys]) trivial hg'
        exact nodesLayered_prec _ hi' (nodesLayered_of_ensure hn hnn)
      · exact hn
    · exact hn
  | addOffsets ns =>
    exact addOffsets_induct (NodesLayered ne) ns (fun _ _ _ _ _ hk h1 h2 => nodesLayered_setAttr hk h1 h2) g hn
  | setAttr n k v =>
    simp only [step]
    cases h : g.setAttr n k v with
    | ok g' => exact nodesLayered_setAttr hv hn h
    | error e => exact hn
  | setTokens ts => exact hn
  | setSentences ts => exact hn
  | setName s => exact hn
  | setMergedRoots l => exact hn
  | setRenamed m => exact hn

theorem nodesLayered_run {ne : Prop} {g : DG} (hi : Inv g) (hn : NodesLayered ne g) {ops : List Op}
    (hv : ∀ op ∈ ops, op.Valid) (hs : ∀ op ∈ ops, op.SafeLayers) (hne : ne → ∀ op ∈ ops, op.NonEmptyLayers) :
    NodesLayered ne (g.run ops) := by
  induction ops generalizing g with
  | nil => exact hn
  | cons op ops ih =>
    exact ih (inv_step hi (hv op (by simp)))
      (nodesLayered_step hi hn (hv op (by simp)) (hs op (by simp)) (fun h => hne h op (by simp)))
      (fun o ho => hv o (List.mem_cons_of_mem _ ho)) (fun o ho => hs o (List.mem_cons_of_mem _ ho))
      (fun h o ho => hne h o (List.mem_cons_of_mem _ ho))

theorem nodesLayered_init (ne : Prop) (name ns : String) (root : Option NodeId) : NodesLayered ne (init name ns root) := by
  intro n a h
  rw [init_eq] at h
  unfold nodeAttrs at h
  simp only [find_cons, find_nil] at h
  split at h <;> simp at h
  subst h
  exact ⟨[.str ns], by simp, by simp, by simp⟩

end DG
end Dg
