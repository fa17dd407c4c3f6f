import Verif.Lemmas.MmaxWhole
import Verif.Lemmas.ExmaraldaWrite

/-! The graph read from an MMAX2 project is well-formed. -/

namespace Dg
open Dict
namespace DG

theorem nodupKeysNil : (keys ([] : Attrs)).Nodup := by simp [keys]

theorem nodup_growLayers {l : Atom} {a : Attrs} (nd : (keys a).Nodup) : (keys (growLayers l a)).Nodup := by
  unfold growLayers
  split
  · exact nodup_put nd _ _
  · exact nd

theorem layeredNE_grow {b : String} {a : Attrs} (h : LayeredNE a) : LayeredNE (growLayers (.str b) a) := by
  obtain ⟨xs, h1, h2, -⟩ := h
  unfold growLayers
  rw [h1]
  refine ⟨_, find_put_self .., ?_, ?_⟩
  · intro x hx
    rcases (mem_setAdd _ _ _).1 hx with hx | hx
    · exact h2 x hx
    · exact ⟨b, hx⟩
  · intro h0
    have : Atom.str b ∈ setAdd xs (.str b) := by simp
    rw [h0] at this
    cases this

theorem inv_growNode {g : DG} (hi : Inv g) (l : Atom) (n : NodeId) : Inv (growNode l g n) := by
  unfold growNode
  split
  · rename_i a ha
    refine inv_of_nodes hi (wf_setAttrs hi.wf ((mem_keys_iff _ _).2 ⟨a, ha⟩) _) (fun _ _ => rfl) ?_
    intro m b hb
    rw [nodeAttrs_putNodes] at hb
    split at hb
    · simp only [Option.some.injEq] at hb
      subst hb
      exact nodup_growLayers (hi.attrs.node n a ha)
    · exact hi.attrs.node m b hb
  · exact hi

theorem inv_growEdge {g : DG} (hi : Inv g) (b : String) (e : NodeId × NodeId) : Inv (growEdge (.str b) g e) := by
  unfold growEdge
  split
  · rename_i kd hk
    split
    · rename_i a ha
      have hk : g.kd? e.1 e.2 = some kd := hk
      have hu := kd?_source hi.wf hk
      have hv := hi.wf.target _ _ _ hk
      have hkdf := kd?_putKeyDict (g := g) (u := e.1) (v := e.2) (by rw [hi.wf.adjKeys]; exact hu) (put kd (.int 0) (growLayers (.str b) a))
      have hview := edgeAttrs_of_put (g := g) (g' := g.putKeyDict e.1 e.2 (put kd (.int 0) (growLayers (.str b) a))) (k := .int 0) (by rw [hk]; exact hkdf)
      have hea : g.edgeAttrs e.1 e.2 (.int 0) = some a := by unfold edgeAttrs; rw [hk]; exact ha
      refine ⟨wf_putKeyDict hi.wf hu hv (nodup_put (hi.wf.kdNodup _ _ _ hk) _ _) ?_, ⟨?_, ?_⟩, ?_⟩
      · intro h0
        have : NodeId.int 0 ∈ keys (put kd (.int 0) (growLayers (.str b) a)) := (mem_keys_iff _ _).2 ⟨_, find_put_self ..⟩
        rw [h0] at this
        cases this
      · intro n c hc
        unfold nodeAttrs at hc
        rw [nodes_putKeyDict] at hc
        exact hi.attrs.node _ _ hc
      · intro u v k c hc
        rw [hview] at hc
        split at hc
        · cases hc
          exact nodup_growLayers (hi.attrs.edge _ _ _ _ hea)
        · exact hi.attrs.edge _ _ _ _ hc
      · intro u v k c hc
        rw [hview] at hc
        split at hc
        · cases hc
          exact layeredNE_grow (hi.edges _ _ _ _ hea)
        · exact hi.edges _ _ _ _ hc
    · exact hi
  · exact hi

theorem inv_mmaxGrow {st : MmaxState} (hi : Inv st.g) (b : String) : Inv (mmaxGrow st (.str b)).g := by
  unfold mmaxGrow
  dsimp only
  have h1 : ∀ (ns : List NodeId) (g : DG), Inv g → Inv (ns.foldl (growNode (.str b)) g) := by
    intro ns
    induction ns with
    | nil => intro g h; exact h
    | cons n ns ih => intro g h; exact ih _ (inv_growNode h _ _)
  have h2 : ∀ (es : List (NodeId × NodeId)) (g : DG), Inv g → Inv (es.foldl (growEdge (.str b)) g) := by
    intro es
    induction es with
    | nil => intro g h; exact h
    | cons e es ih => intro g h; exact ih _ (inv_growEdge h _ _)
  exact h2 _ _ (h1 _ _ hi)

/-- what a loop keeps -/
theorem foldlM_keeps {α β : Type} {f : β → α → Except PyErr β} (P : β → Prop) (xs : List α) (h : ∀ x ∈ xs, ∀ b b', P b → f b x = .ok b' → P b') : ∀ {b b' : β}, P b → xs.foldlM f b = .ok b' → P b' := by
  induction xs with
  | nil =>
    intro b b' hb e
    cases e
    exact hb
  | cons x xs ih =>
    intro b b' hb e
    rw [List.foldlM_cons] at e
    obtain ⟨c, hc, e⟩ := bind_ok_split e
    exact ih (fun y hy => h y (List.mem_cons_of_mem _ hy)) (h x List.mem_cons_self _ _ hb hc) e

theorem addPrefix_nodup {V : Type} (d : Dict String V) (p : String) : (keys (addPrefix d p)).Nodup := by
  unfold addPrefix
  have : ∀ (d acc : Dict String V), (keys acc).Nodup → (keys (d.foldl (fun acc kv => Dict.put acc (p ++ kv.1) kv.2) acc)).Nodup := by
    intro d
    induction d with
    | nil => intro acc h; exact h
    | cons x d ih => intro acc h; exact ih _ (nodup_put h _ _)
  exact this d [] List.nodup_nil

theorem inv_mmaxAddNode {st st' : MmaxState} (hi : Inv st.g) {n : NodeId} {ad : AttrArg} {attr : Attrs} (nda : (keys attr).Nodup) (vad : AttrArg.Valid ad) (h : mmaxAddNode st n ad attr = .ok st') : Inv st'.g := by
  unfold mmaxAddNode at h
  obtain ⟨g, hg, h⟩ := bind_ok_split h
  cases h
  exact inv_addNode hi nda vad hg

theorem inv_mmaxAddEdge {st st' : MmaxState} (hi : Inv st.g) {u v : NodeId} {attr : Attrs} (nda : (keys attr).Nodup) (h : mmaxAddEdge st u v attr = .ok st') : Inv st'.g := by
  unfold mmaxAddEdge at h
  obtain ⟨g, hg, h⟩ := bind_ok_split h
  cases h
  exact inv_addEdge hi nda (by exact trivial) hg

theorem inv_mmaxAddAntecedent {m : NodeId} {st st' : MmaxState} {ante : List Char} (hi : Inv st.g) (h : mmaxAddAntecedent m st ante = .ok st') : Inv st'.g := by
  unfold mmaxAddAntecedent at h
  dsimp only at h
  have key : ∀ (x : String × MmaxState), Inv x.2.g → (do
      let st2 ← if Dict.has x.2.g.nodes (NodeId.str (String.ofList ((splitChars ':' ante).getLast?.getD []))) = true then .ok x.2 else mmaxAddNode x.2 (NodeId.str (String.ofList ((splitChars ':' ante).getLast?.getD []))) .none []
      mmaxAddEdge st2 m (NodeId.str (String.ofList ((splitChars ':' ante).getLast?.getD []))) [("edge_type", .atom (.str "points_to")), ("label", .atom (.str (st2.g.ns ++ x.1)))]) = Except.ok st' → Inv st'.g := by
    intro x hx e
    dsimp only at e
    split at e
    · exact inv_mmaxAddEdge hx (by simp [keys]) e
    · obtain ⟨st2, h2, e⟩ := bind_ok_split e
      exact inv_mmaxAddEdge (inv_mmaxAddNode hx nodupKeysNil (by exact trivial) h2) (by simp [keys]) e
  split at h
  · exact key (_, _) (inv_mmaxGrow hi _) h
  · exact key (_, _) hi h

theorem inv_mmaxAddMarkable {level : String} {st st' : MmaxState} {d : XAttrs} (hi : Inv st.g) (h : mmaxAddMarkable level st d = .ok st') : Inv st'.g := by
  unfold mmaxAddMarkable at h
  obtain ⟨i, -, h⟩ := bind_ok_split h
  obtain ⟨st1, h1, h⟩ := bind_ok_split h
  obtain ⟨span, -, h⟩ := bind_ok_split h
  obtain ⟨ts, -, h⟩ := bind_ok_split h
  obtain ⟨st2, h2, h⟩ := bind_ok_split h
  have i1 : Inv st1.g := inv_mmaxAddNode hi (by simp [keys]) (by exact addPrefix_nodup _ _) h1
  have i2 : Inv st2.g := foldlM_keeps (fun s => Inv s.g) ts (fun t _ s s' hs e => inv_mmaxAddEdge hs (by simp [keys]) e) i1 h2
  split at h
  · cases h; exact i2
  · split at h
    · cases h; exact i2
    · exact foldlM_keeps (fun s => Inv s.g) _ (fun t _ s s' hs e => inv_mmaxAddAntecedent hs e) i2 h

theorem inv_mmaxAddLevel {g g' : DG} {level : String} {file : Option (List XAttrs)} (hi : Inv g) (h : g.mmaxAddLevel level file = .ok g') : Inv g' := by
  unfold mmaxAddLevel at h
  split at h
  · cases h
  · obtain ⟨st, h1, h⟩ := bind_ok_split h
    cases h
    exact foldlM_keeps (fun s => Inv s.g) _ (fun t _ s s' hs e => inv_mmaxAddMarkable hs e) hi h1

theorem inv_mmaxAddWord {g g' : DG} {connected : Bool} {w : MmaxWord} (hi : Inv g) (h : g.mmaxAddWord connected w = .ok g') : Inv g' := by
  unfold mmaxAddWord at h
  dsimp only at h
  split at h
  · cases h
  · obtain ⟨g2, h2, h⟩ := bind_ok_split h
    have i2 : Inv g2 := by
      refine inv_addNode (inv_tokens hi _) nodupKeysNil ?_ h2
      show (keys _).Nodup
      simp only [keys, List.map_cons, List.map_nil, List.nodup_cons, List.mem_singleton, List.not_mem_nil, not_false_eq_true, List.nodup_nil, and_true]
      exact fun h => qual_ne_plain (show (':' : Char) ∉ "label".toList by decide) h
    split at h
    · exact inv_addEdge i2 nodupKeysNil (by exact trivial) h
    · cases h; exact i2

theorem inv_mmaxSentences {p : MmaxProject} {ignore : Bool} {g : DG} {r : DG × List (NodeId × List NodeId)} (hi : Inv g) (h : mmaxSentences p ignore g = .ok r) : Inv r.1 := by
  unfold mmaxSentences at h
  split at h
  · split at h
    · split at h
      · cases h
      · refine foldlM_keeps (fun s => Inv s.1) _ ?_ hi h
        intro d _ s s' hs e
        unfold mmaxSentence at e
        obtain ⟨i, -, e⟩ := bind_ok_split e
        obtain ⟨span, -, e⟩ := bind_ok_split e
        obtain ⟨ts, -, e⟩ := bind_ok_split e
        obtain ⟨g2, h2, e⟩ := bind_ok_split e
        cases e
        exact foldlM_keeps (fun g => Inv g) _ (fun t _ a b ha e => inv_addNode ha nodupKeysNil (by exact trivial) e) hs h2
    · cases h
  · obtain ⟨ns, -, h⟩ := bind_ok_split h
    obtain ⟨ss, -, h⟩ := bind_ok_split h
    cases h
    exact hi

/-- the document graph is well-formed -/
theorem mmaxRead_inv {name : Option String} {ns : String} {precedence connected ignore : Bool} {p : MmaxProject} {order : List String} {g : DG} (h : mmaxRead name ns precedence connected ignore p order = .ok g) : Inv g := by
  rw [mmaxRead_steps] at h
  obtain ⟨g3, h3, h⟩ := bind_ok_split h
  obtain ⟨x, hx, h⟩ := bind_ok_split h
  obtain ⟨y, hy, h⟩ := bind_ok_split h
  obtain ⟨g2, h2, h3⟩ := bind_ok_split h3
  obtain ⟨g1, h1, h2⟩ := bind_ok_split h2
  have i0 : Inv (mmaxStart (mmaxName name p) ns) := (init_state (mmaxName name p) ns).inv
  have i1 : Inv g1 := inv_addNode i0 nodupKeysNil (by exact trivial) h1
  have words : ∀ (c : Bool) (g g' : DG), Inv g → p.words.foldlM (mmaxAddWord c) g = .ok g' → Inv g' := fun c g g' hg e => foldlM_keeps (fun g => Inv g) _ (fun w _ a b ha e => inv_mmaxAddWord ha e) hg e
  have i2 : Inv g2 := by
    split at h2
    · obtain ⟨g4, h4, h2⟩ := bind_ok_split h2
      unfold batch at h2
      split at h2
      · cases h2
        exact inv_addPrecedence (words _ _ _ (inv_tokens i1 _) h4)
      · cases h2
    · exact words _ _ _ (inv_tokens i1 _) h2
  have i3 : Inv g3 := foldlM_keeps (fun g => Inv g) _ (fun l _ a b ha e => inv_mmaxAddLevel ha e) i2 h3
  have i4 := inv_mmaxSentences i3 hx
  unfold mmaxSetSentences at h
  split at h
  · cases h
  · exact foldlM_keeps (fun g => Inv g) _ (fun s _ a b ha e => inv_setAttr ha e) (inv_sentences i4 _) h

end DG
end Dg
