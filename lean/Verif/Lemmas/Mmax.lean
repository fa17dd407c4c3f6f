import Verif.Spec.Mmax
import Verif.Lemmas.Upto
import Verif.Lemmas.DisGraph
import Verif.Lemmas.Tiger
import Verif.Lemmas.Text
import Mathlib.Tactic.Tauto

/-! Reading a level of an MMAX2 project: the calls. -/

namespace Dg
open Dict
namespace DG

variable {X Y : NodeId → Atom → Prop} {g g' : DG}

/-! ### additional layers -/

theorem attrsUpto_grow {Z : Atom → Prop} {a a' : Attrs} (h : AttrsUpto Z a a') {l : Atom} (hl : Z l) : AttrsUpto Z a (growLayers l a') := by
  obtain ⟨h0, xs, ys, e1, e2, h1, h2⟩ := h
  unfold growLayers
  rw [e2]
  refine ⟨?_, xs, setAdd ys l, e1, find_put_self .., ?_, ?_⟩
  · intro k hk
    rw [find_put_ne _ _ (Ne.symm hk)]; exact h0 k hk
  · intro x hx
    rw [mem_setAdd]; exact .inl (h1 x hx)
  · intro x hx
    rw [mem_setAdd] at hx
    rcases hx with hx | rfl
    · exact h2 x hx
    · exact .inr hl

theorem Upto.growNode (h : Upto X Y g g') {l : Atom} {n : NodeId} (hl : X n l) : Upto X Y g (DG.growNode l g' n) := by
  unfold DG.growNode
  rcases h.nodes.find n with ⟨e1, e2⟩ | ⟨a, a', e1, e2, r⟩
  · rw [e2]; exact h
  · rw [e2]
    exact ⟨h.name, h.ns, h.root, h.tokens, h.sentences, h.mergedRoots, h.renamed, h.nodes.putRight e1 (attrsUpto_grow r hl), h.adj⟩

theorem Upto.growEdge (h : Upto X Y g g') {l : Atom} {e : NodeId × NodeId} (hl : Y e.1 l) : Upto X Y g (DG.growEdge l g' e) := by
  obtain ⟨u, v⟩ := e
  unfold DG.growEdge
  dsimp only
  rcases h.adj.find u with ⟨e1, e2⟩ | ⟨d, d', e1, e2, r⟩
  · rw [e2]; exact h
  · rw [e2]
    show Upto X Y g (match find d' v with
      | some kd => _
      | none => g')
    rcases r.find v with ⟨f1, f2⟩ | ⟨k, k', f1, f2, rk⟩
    · rw [f2]; exact h
    · rw [f2]
      dsimp only
      rcases rk.find (.int 0) with ⟨z1, z2⟩ | ⟨a, a', z1, z2, ra⟩
      · rw [z2]; exact h
      · rw [z2]
        dsimp only
        unfold DG.putKeyDict
        rw [e2]
        exact ⟨h.name, h.ns, h.root, h.tokens, h.sentences, h.mergedRoots, h.renamed, h.nodes, h.adj.putRight e1 (r.putRight f1 (rk.putRight z1 (attrsUpto_grow ra hl)))⟩

theorem Upto.growAll (h : Upto X Y g g') {l : Atom} {ns : List NodeId} {es : List (NodeId × NodeId)} (hn : ∀ n ∈ ns, X n l) (he : ∀ e ∈ es, Y e.1 l) :
    Upto X Y g (es.foldl (DG.growEdge l) (ns.foldl (DG.growNode l) g')) := by
  have h1 : ∀ (ns : List NodeId) (g' : DG), Upto X Y g g' → (∀ n ∈ ns, X n l) → Upto X Y g (ns.foldl (DG.growNode l) g') := by
    intro ns
    induction ns with
    | nil => intro g' h _; exact h
    | cons n ns ih => intro g' h hn; exact ih _ (h.growNode (hn n (by simp))) (fun m hm => hn m (by simp [hm]))
  have h2 : ∀ (es : List (NodeId × NodeId)) (g' : DG), Upto X Y g g' → (∀ e ∈ es, Y e.1 l) → Upto X Y g (es.foldl (DG.growEdge l) g') := by
    intro es
    induction es with
    | nil => intro g' h _; exact h
    | cons n ns ih => intro g' h hn; exact ih _ (h.growEdge (hn n (by simp))) (fun m hm => hn m (by simp [hm]))
  exact h2 es _ (h1 ns g' h hn) he

/-! ### the calls -/

/-- the calls for an antecedent -/
def anteCalls (ns : String) (doc : MmaxDoc) (level : String) (m : NodeId) (a : Option String × String) : List Instr :=
  (if a.2 ∈ doc.wordIds then [] else [.node (.str a.2) [ns, qual ns "markable"] []]) ++ [.edge m (.str a.2) (levelLayers ns level) [("edge_type", strV "points_to"), ("label", strV (anteLabel ns a.1))]]

/-- the calls for a markable -/
def markCalls (ns : String) (doc : MmaxDoc) (x : String × Markable) : List Instr :=
  .node x.2.node (levelLayers ns x.1) (xmlAttrs ns x.2.attrs ++ [("label", strV (qual x.2.id x.1))]) ::
    ((doc.toks x.2).map (fun t => .edge x.2.node t (levelLayers ns x.1) [("edge_type", strV "spans"), ("label", strV (qual ns x.1))]) ++
     x.2.antes.flatMap (anteCalls ns doc x.1 x.2.node))

/-- The state of the reader while it reads a level, compared to the graph built by the calls. -/
structure MmaxSim (ns : String) (doc : MmaxDoc) (level : String) (g : DG) (st : MmaxState) : Prop where
  state : DisState ns g
  upto : Upto (ExtraLayer ns doc) (ExtraEdgeLayer ns doc) g st.g
  layers : ∃ ls : List String, st.layers = ls.map Atom.str ∧ (∀ l ∈ levelLayers ns level, l ∈ ls) ∧ ∀ l ∈ ls, l ∈ levelLayers ns level ∨ NamedIn ns doc level (.str l)
  nodes : ∀ n ∈ st.nodes, ∀ l, NamedIn ns doc level l → ExtraLayer ns doc n l
  edges : ∀ e ∈ st.edges, ∀ l, NamedIn ns doc level l → ExtraEdgeLayer ns doc e.1 l
  renamed : g.renamed = none
  words : ∀ i ∈ doc.wordIds, g.HasNode (.str i)
  known : ∀ n, g.HasNode n → n = docRoot ns ∨ n ∈ doc.tokens ∨ (∃ i ∈ doc.markIds ++ doc.anteIds, n = .str i) ∧ g.NodeLayer n (.str ns) ∧ g.NodeLayer n (.str (qual ns "markable"))

variable {ns level : String} {doc : MmaxDoc} {st : MmaxState}

theorem mergeLabel {ns i level : String} {d : XAttrs} (nd : (keys d).Nodup) (g : DG) (n : NodeId) (ls : List String) :
    g.addNode n (.set (ls.map Atom.str)) (.dict (tigerFeats ns d)) [("label", .atom (.str (qual i level)))] = (Instr.node n ls (xmlAttrs ns d ++ [("label", strV (qual i level))])).exec g := by
  rw [tigerFeats_eq nd]
  have hp : ∀ k : String, ':' ∉ k.toList → k ∉ keys (xmlAttrs ns d) := fun k hk => xmlAttrs_plain hk
  exact addNode_append g n ls (by simp [keys]) (by intro k hk; simp [keys] at hk; subst hk; exact hp _ (by decide)) (hp _ (by decide)) (by simp [keys])

theorem keys_label {ns i : String} {d : XAttrs} (nd : (keys d).Nodup) : (keys (xmlAttrs ns d ++ [("label", strV i)])).Nodup := by
  have : keys (xmlAttrs ns d ++ [("label", strV i)]) = keys (xmlAttrs ns d) ++ ["label"] := by simp [keys]
  rw [this, List.nodup_append']
  refine ⟨xmlAttrs_nodup nd, by simp, ?_⟩
  intro k hk hk'
  simp at hk'; subst hk'
  exact xmlAttrs_plain (by decide) hk

/-- a node with the layers of the level -/
theorem MmaxSim.addNode (h : MmaxSim ns doc level g st) {n : NodeId} {ls : List String} {ad : AttrArg} {attr at' : Attrs}
    (hm : ∀ (g : DG) (ls : List String), g.addNode n (.set (ls.map Atom.str)) ad attr = (Instr.node n ls at').exec g) (nd : (keys at').Nodup)
    (h0 : ∀ l ∈ [ns, qual ns "markable"], l ∈ ls) (h1 : ∀ l ∈ ls, l ∈ levelLayers ns level) (h2 : ∀ l, (l = .str (qual ns level) → .str (qual ns level) ∉ ls.map Atom.str → ExtraLayer ns doc n l) ∧ (NamedIn ns doc level l → ExtraLayer ns doc n l))
    (hk : ∃ i ∈ doc.markIds ++ doc.anteIds, n = .str i) :
    ∃ g1 st1, (Instr.node n ls at').exec g = .ok g1 ∧ mmaxAddNode st n ad attr = .ok st1 ∧ MmaxSim ns doc level g1 st1 ∧ g1.HasNode n ∧ ∀ m, g.HasNode m → g1.HasNode m := by
  have hne : ls ≠ [] := List.ne_nil_of_mem (h0 ns (by simp))
  obtain ⟨g1, e1, hs1, b1⟩ := execs_state h.state (s := [.node n ls at']) (by intro i hi; simp at hi; subst hi; exact ⟨hne, nd⟩)
  rw [execs_one] at e1
  obtain ⟨ls', hl, hl1, hl2⟩ := h.layers
  obtain ⟨r', e2, hu⟩ := h.upto.addNode (ls' := ls') nd hne (fun l hl => hl1 l (h1 l hl)) (by
    intro l hl
    by_cases hin : l ∈ ls
    · exact .inl hin
    · right
      rcases hl2 l hl with hl | hl
      · simp only [levelLayers, List.mem_cons, List.not_mem_nil, or_false] at hl
        rcases hl with rfl | rfl | rfl
        · exact absurd (h0 _ (by simp)) hin
        · exact absurd (h0 _ (by simp)) hin
        · exact (h2 _).1 rfl (by intro hmem; obtain ⟨s, hs, e⟩ := List.mem_map.1 hmem; cases e; exact hin hs)
      · exact (h2 _).2 hl) e1
  have hmono : ∀ m, g.HasNode m → g1.HasNode m := fun m hm => (b1.nodes m).2 (.inl hm)
  refine ⟨g1, { st with g := r', nodes := if Dict.has st.g.nodes n then st.nodes.filter (· ≠ n) else n :: st.nodes }, e1, ?_, ?_, (b1.nodes n).2 (.inr ⟨_, List.mem_singleton.2 rfl, rfl⟩), hmono⟩
  · unfold mmaxAddNode
    rw [hl, hm, e2]; rfl
  · refine ⟨hs1, hu, ⟨ls', hl, hl1, hl2⟩, ?_, h.edges, b1.renamed.trans h.renamed, fun i hi => hmono _ (h.words i hi), ?_⟩
    · intro m hm l hl
      dsimp only at hm
      split at hm
      · exact h.nodes m (List.mem_filter.1 hm).1 l hl
      · rcases List.mem_cons.1 hm with rfl | hm
        · exact (h2 l).2 hl
        · exact h.nodes m hm l hl
    · intro m hm
      by_cases hmn : m = n
      · subst hmn
        refine .inr (.inr ⟨hk, ?_, ?_⟩) <;>
        · rw [b1.layer]
          exact .inr (.inl ⟨_, List.mem_singleton.2 rfl, rfl, List.mem_map.2 ⟨_, h0 _ (by simp), rfl⟩⟩)
      · rcases (b1.nodes m).1 hm with hm | ⟨i, hi, hmen⟩
        · rcases h.known m hm with h' | h' | ⟨h', l1, l2⟩
          · exact .inl h'
          · exact .inr (.inl h')
          · exact .inr (.inr ⟨h', (b1.layer _ _).2 (.inl l1), (b1.layer _ _).2 (.inl l2)⟩)
        · rw [List.mem_singleton.1 hi] at hmen
          exact absurd hmen hmn

/-- an edge with the layers of the level -/
theorem MmaxSim.addEdge (h : MmaxSim ns doc level g st) {u v : NodeId} {at' : Attrs} (nd : (keys at').Nodup) (hu : g.HasNode u) (hv : g.HasNode v) (hY : ∀ l, NamedIn ns doc level l → ExtraEdgeLayer ns doc u l) :
    ∃ g1 st1, (Instr.edge u v (levelLayers ns level) at').exec g = .ok g1 ∧ mmaxAddEdge st u v at' = .ok st1 ∧ MmaxSim ns doc level g1 st1 ∧ ∀ m, g1.HasNode m ↔ g.HasNode m := by
  obtain ⟨g1, e1, hs1, b1⟩ := execs_state h.state (s := [.edge u v (levelLayers ns level) at']) (by intro i hi; simp at hi; subst hi; exact ⟨by simp [levelLayers], nd⟩)
  rw [execs_one] at e1
  obtain ⟨ls', hl, hl1, hl2⟩ := h.layers
  obtain ⟨r', e2, hup⟩ := h.upto.addEdge (ls' := ls') nd (by simp [levelLayers]) hl1 (fun l hl => (hl2 l hl).imp id (hY _)) e1
  have hn : ∀ m, g1.HasNode m ↔ g.HasNode m := by
    intro m
    rw [b1.nodes]
    constructor
    · rintro (h | ⟨i, hi, hm⟩)
      · exact h
      · rw [List.mem_singleton.1 hi] at hm
        rcases hm with rfl | rfl <;> assumption
    · exact .inl
  refine ⟨g1, { st with g := r', edges := if ((Dict.find st.g.adj u).bind (Dict.find · v)).isSome then st.edges else (u, v) :: st.edges }, e1, ?_, ?_, hn⟩
  · unfold mmaxAddEdge
    rw [hl]
    simp only [Instr.exec] at e2
    rw [e2]; rfl
  · refine ⟨hs1, hup, ⟨ls', hl, hl1, hl2⟩, h.nodes, ?_, b1.renamed.trans h.renamed, fun i hi => (hn _).2 (h.words i hi), ?_⟩
    · intro e he l hl
      dsimp only at he
      split at he
      · exact h.edges e he l hl
      · rcases List.mem_cons.1 he with rfl | he
        · exact hY l hl
        · exact h.edges e he l hl
    · intro m hm
      rcases h.known m ((hn m).1 hm) with h' | h' | ⟨h', l1, l2⟩
      · exact .inl h'
      · exact .inr (.inl h')
      · exact .inr (.inr ⟨h', (b1.layer _ _).2 (.inl l1), (b1.layer _ _).2 (.inl l2)⟩)

theorem MmaxSim.grow (h : MmaxSim ns doc level g st) {b : String} (hb : NamedIn ns doc level (.str (qual ns b))) : MmaxSim ns doc level g (mmaxGrow st (.str (qual ns b))) := by
  obtain ⟨ls', hl, hl1, hl2⟩ := h.layers
  refine ⟨h.state, h.upto.growAll (fun n hn => h.nodes n hn _ hb) (fun e he => h.edges e he _ hb), ?_, h.nodes, h.edges, h.renamed, h.words, h.known⟩
  refine ⟨if qual ns b ∈ ls' then ls' else ls' ++ [qual ns b], ?_, ?_, ?_⟩
  · show setAdd st.layers _ = _
    unfold setAdd
    rw [hl]
    by_cases hin : qual ns b ∈ ls'
    · rw [if_pos hin, if_pos (List.mem_map.2 ⟨_, hin, rfl⟩)]
    · rw [if_neg hin, if_neg (by intro hm; obtain ⟨s, hs, e⟩ := List.mem_map.1 hm; cases e; exact hin hs)]
      simp
  · intro l hl
    split
    · exact hl1 l hl
    · exact List.mem_append_left _ (hl1 l hl)
  · intro l hl
    split at hl
    · exact hl2 l hl
    · rcases List.mem_append.1 hl with hl | hl
      · exact hl2 l hl
      · rw [List.mem_singleton.1 hl]; exact .inr hb

/-- the tokens of a span -/
theorem MmaxSim.span (h : MmaxSim ns doc level g st) {m : Markable} (hm : m.Spans) (hs : ∀ i ∈ m.ids, i ∈ doc.wordIds ∨ (i ∉ doc.markIds ++ doc.anteIds ∧ i ≠ qual ns "root_node")) : st.g.spanstring2tokens (xval m.attrs "span") = .ok (doc.toks m) := by
  unfold spanstring2tokens
  rw [hm.ids]
  show Except.ok _ = Except.ok _
  congr 1
  unfold MmaxDoc.toks
  rw [← List.filterMap_eq_map, List.filterMap_filter]
  refine List.filterMap_congr ?_
  intro i hi
  unfold existingToken
  have hhas : Dict.has st.g.nodes (.str i) = decide (i ∈ doc.wordIds) := by
    rw [Bool.eq_iff_iff, has_iff, decide_eq_true_eq]
    show st.g.HasNode _ ↔ _
    rw [h.upto.hasNode]
    constructor
    · intro hn
      rcases hs i hi with hw | ⟨h1, h2⟩
      · exact hw
      · rcases h.known _ hn with h' | h' | ⟨⟨j, hj, h'⟩, _⟩
        · exact absurd (NodeId.str.inj h') h2
        · obtain ⟨j, hj, e⟩ := List.mem_map.1 h'
          cases e; exact hj
        · cases h'; exact absurd hj h1
    · exact h.words i
  have hr : st.g.renamed = none := h.upto.renamed.trans h.renamed
  rw [hhas, hr]
  by_cases hw : i ∈ doc.wordIds <;> simp [hw]

theorem namedIn_mono {level : String} {m : Markable} (hm : (level, m) ∈ doc.marks) : ∀ l, NamedIn ns doc level l → ExtraEdgeLayer ns doc m.node l := fun _ hl => ⟨(level, m), hm, rfl, hl⟩

/-- the edges to the tokens -/
theorem MmaxSim.spans {m : Markable} (hm : (level, m) ∈ doc.marks) : ∀ (ts : List NodeId) {g : DG} {st : MmaxState}, MmaxSim ns doc level g st → g.HasNode m.node → (∀ t ∈ ts, g.HasNode t) →
    ∃ g1 st1, execs g (ts.map (fun t => .edge m.node t (levelLayers ns level) [("edge_type", strV "spans"), ("label", strV (qual ns level))])) = .ok g1 ∧ ts.foldlM (mmaxAddSpan level m.node) st = .ok st1 ∧ MmaxSim ns doc level g1 st1 ∧ ∀ n, g1.HasNode n ↔ g.HasNode n := by
  intro ts
  induction ts with
  | nil => intro g st h _ _; exact ⟨g, st, rfl, rfl, h, fun _ => Iff.rfl⟩
  | cons t ts ih =>
    intro g st h hn ht
    have hns : st.g.ns = ns := h.upto.ns.trans h.state.ns
    obtain ⟨g1, st1, e1, f1, h1, n1⟩ := h.addEdge (u := m.node) (v := t) (at' := [("edge_type", strV "spans"), ("label", strV (qual ns level))]) (by simp [keys]) hn (ht t (by simp)) (namedIn_mono hm)
    obtain ⟨g2, st2, e2, f2, h2, n2⟩ := ih h1 ((n1 _).2 hn) (fun x hx => (n1 _).2 (ht x (by simp [hx])))
    refine ⟨g2, st2, ?_, ?_, h2, fun n => (n2 n).trans (n1 n)⟩
    · rw [List.map_cons, execs_cons, e1]; exact e2
    · rw [List.foldlM_cons]
      unfold mmaxAddSpan at f2 ⊢
      rw [hns]
      rw [show ([("edge_type", .atom (.str "spans")), ("label", .atom (.str (qual ns level)))] : Attrs) = [("edge_type", strV "spans"), ("label", strV (qual ns level))] from rfl, f1]
      exact f2

theorem anteText_split {a : Option String × String} (hc : ':' ∉ a.2.toList ∧ ∀ l, a.1 = some l → ':' ∉ l.toList) : splitChars ':' (Markable.anteText a) = match a.1 with
    | none => [a.2.toList]
    | some l => [l.toList, a.2.toList] := by
  unfold Markable.anteText
  cases h : a.1 with
  | none => exact splitChars_no_sep _ _ hc.1
  | some l =>
    show splitChars ':' (l.toList ++ ':' :: a.2.toList) = _
    rw [splitChars_append_sep _ _ (hc.2 l h), splitChars_no_sep _ _ hc.1]

/-- an edge to an antecedent -/
theorem MmaxSim.ante (h : MmaxSim ns doc level g st) {m : Markable} (hm : (level, m) ∈ doc.marks) {a : Option String × String} (ha : a ∈ m.antes) (hc : ':' ∉ a.2.toList ∧ ∀ l, a.1 = some l → ':' ∉ l.toList) (hn : g.HasNode m.node) :
    ∃ g1 st1, execs g (anteCalls ns doc level m.node a) = .ok g1 ∧ mmaxAddAntecedent m.node st (Markable.anteText a) = .ok st1 ∧ MmaxSim ns doc level g1 st1 ∧ ∀ n, g.HasNode n → g1.HasNode n := by
  have hns : st.g.ns = ns := h.upto.ns.trans h.state.ns
  have hroot : NodeId.str a.2 ≠ docRoot ns := by
    intro e
    have : a.2 = qual ns "root_node" := NodeId.str.inj e
    refine hc.1 ?_
    rw [this]
    simp [qual]
  have hids : a.2 ∈ doc.markIds ++ doc.anteIds := by
    refine List.mem_append_right _ ?_
    exact List.mem_flatMap.2 ⟨(level, m), hm, List.mem_map.2 ⟨a, ha, rfl⟩⟩
  -- the state after `default_layers.add`
  obtain ⟨stg, hg, hstg⟩ : ∃ stg, MmaxSim ns doc level g stg ∧ (mmaxAddAntecedent m.node st (Markable.anteText a) = ((if Dict.has stg.g.nodes (.str a.2) then .ok stg else mmaxAddNode stg (.str a.2) .none [] : Except PyErr MmaxState) >>= fun st2 =>
      mmaxAddEdge st2 m.node (.str a.2) [("edge_type", strV "points_to"), ("label", strV (st2.g.ns ++ (match a.1 with | none => ":antecedent" | some l => l ++ ":antecedent")))])) := by
    cases hl : a.1 with
    | none =>
      refine ⟨st, h, ?_⟩
      unfold mmaxAddAntecedent
      rw [anteText_split hc, hl]
      simp only [List.getLast?_singleton, Option.getD_some, String.ofList_toList]
      split <;> rfl
    | some l =>
      refine ⟨mmaxGrow st (.str (qual ns l)), h.grow ⟨m, hm, a, ha, l, hl, rfl⟩, ?_⟩
      unfold mmaxAddAntecedent
      rw [anteText_split hc, hl, hns]
      simp only [List.getLast?_cons_cons, List.getLast?_singleton, Option.getD_some, String.ofList_toList]
      split <;> rfl
  -- the antecedent exists
  obtain ⟨g2, st2, e2, f2, h2, n2, n2'⟩ : ∃ g2 st2, execs g (if a.2 ∈ doc.wordIds then [] else [.node (.str a.2) [ns, qual ns "markable"] []]) = .ok g2 ∧
      ((if Dict.has stg.g.nodes (.str a.2) then .ok stg else mmaxAddNode stg (.str a.2) .none [] : Except PyErr MmaxState) = .ok st2) ∧ MmaxSim ns doc level g2 st2 ∧ g2.HasNode (.str a.2) ∧ ∀ n, g.HasNode n → g2.HasNode n := by
    have hhas : Dict.has stg.g.nodes (.str a.2) = true ↔ g.HasNode (.str a.2) := by rw [has_iff]; exact hg.upto.hasNode _
    by_cases hw : a.2 ∈ doc.wordIds
    · rw [if_pos hw, if_pos (hhas.2 (h.words _ hw))]
      exact ⟨g, stg, rfl, rfl, hg, h.words _ hw, fun _ h => h⟩
    · rw [if_neg hw, execs_one]
      by_cases hex : g.HasNode (.str a.2)
      · rw [if_pos (hhas.2 hex)]
        obtain ⟨g1, e1, hs1, b1⟩ := execs_state h.state (s := [.node (.str a.2) [ns, qual ns "markable"] []]) (by intro i hi; simp at hi; subst hi; exact ⟨by simp, by simp [keys]⟩)
        rw [execs_one] at e1
        have hlay : g.NodeLayer (.str a.2) (.str ns) ∧ g.NodeLayer (.str a.2) (.str (qual ns "markable")) := by
          rcases h.known _ hex with h' | h' | ⟨_, h'⟩
          · exact absurd h' hroot
          · obtain ⟨j, hj, e⟩ := List.mem_map.1 h'
            cases e; exact absurd hj hw
          · exact h'
        have hup := hg.upto.addLeft (ls := [ns, qual ns "markable"]) (by simp) hex (by
          intro l hl
          simp only [List.mem_cons, List.not_mem_nil, or_false] at hl
          rcases hl with rfl | rfl
          · exact hg.upto.layer hlay.1
          · exact hg.upto.layer hlay.2) e1
        refine ⟨g1, stg, e1, rfl, ⟨hs1, hup, hg.layers, hg.nodes, hg.edges, b1.renamed.trans hg.renamed, fun i hi => (b1.nodes _).2 (.inl (hg.words i hi)), ?_⟩, (b1.nodes _).2 (.inl hex), fun n hn => (b1.nodes _).2 (.inl hn)⟩
        intro n hn
        have hn' : g.HasNode n := by
          rcases (b1.nodes n).1 hn with h | ⟨i, hi, hmen⟩
          · exact h
          · rw [List.mem_singleton.1 hi] at hmen
            rw [show n = .str a.2 from hmen]; exact hex
        rcases hg.known n hn' with h' | h' | ⟨h', l1, l2⟩
        · exact .inl h'
        · exact .inr (.inl h')
        · exact .inr (.inr ⟨h', (b1.layer _ _).2 (.inl l1), (b1.layer _ _).2 (.inl l2)⟩)
      · rw [if_neg (fun h => hex (hhas.1 h))]
        obtain ⟨g1, st1, e1, f1, h1, n1, n1'⟩ := hg.addNode (n := .str a.2) (ls := [ns, qual ns "markable"]) (ad := .none) (attr := []) (at' := []) (fun _ _ => rfl) (by simp [keys]) (fun l hl => hl) (by
          intro l hl
          simp only [levelLayers, List.mem_cons, List.not_mem_nil, or_false] at hl ⊢
          tauto) (by
          intro l
          refine ⟨fun hl _ => .inr ⟨(level, m), hm, a, ha, rfl, hw, .inl hl⟩, fun hl => .inr ⟨(level, m), hm, a, ha, rfl, hw, .inr hl⟩⟩) ⟨a.2, hids, rfl⟩
        exact ⟨g1, st1, e1, f1, h1, n1, n1'⟩
  have hns2 : st2.g.ns = ns := h2.upto.ns.trans h2.state.ns
  obtain ⟨g3, st3, e3, f3, h3, n3⟩ := h2.addEdge (u := m.node) (v := .str a.2) (at' := [("edge_type", strV "points_to"), ("label", strV (anteLabel ns a.1))]) (by simp [keys]) (n2' _ hn) n2 (namedIn_mono hm)
  refine ⟨g3, st3, ?_, ?_, h3, fun n hn => (n3 n).2 (n2' n hn)⟩
  · unfold anteCalls
    rw [execs_append, e2]
    show execs g2 _ = _
    rw [execs_one]; exact e3
  · rw [hstg, f2]
    show mmaxAddEdge st2 _ _ _ = _
    rw [hns2, ← f3]
    cases a.1 <;> rfl

/-- all antecedents of a markable -/
theorem MmaxSim.antes {m : Markable} (hm : (level, m) ∈ doc.marks) : ∀ (as : List (Option String × String)) {g : DG} {st : MmaxState}, MmaxSim ns doc level g st → g.HasNode m.node → (∀ a ∈ as, a ∈ m.antes ∧ ':' ∉ a.2.toList ∧ ∀ l, a.1 = some l → ':' ∉ l.toList) →
    ∃ g1 st1, execs g (as.flatMap (anteCalls ns doc level m.node)) = .ok g1 ∧ (as.map Markable.anteText).foldlM (mmaxAddAntecedent m.node) st = .ok st1 ∧ MmaxSim ns doc level g1 st1 ∧ ∀ n, g.HasNode n → g1.HasNode n := by
  intro as
  induction as with
  | nil => intro g st h _ _; exact ⟨g, st, rfl, rfl, h, fun _ h => h⟩
  | cons a as ih =>
    intro g st h hn ha
    obtain ⟨g1, st1, e1, f1, h1, n1⟩ := h.ante hm (ha a (by simp)).1 (ha a (by simp)).2 hn
    obtain ⟨g2, st2, e2, f2, h2, n2⟩ := ih h1 (n1 _ hn) (fun x hx => ha x (by simp [hx]))
    refine ⟨g2, st2, ?_, ?_, h2, fun n hn => n2 n (n1 n hn)⟩
    · rw [List.flatMap_cons, execs_append, e1]; exact e2
    · rw [List.map_cons, List.foldlM_cons, f1]; exact f2

theorem MmaxSim.mark (h : MmaxSim ns doc level g st) {m : Markable} (hm : (level, m) ∈ doc.marks) (ho : m.Ok) (hs : ∀ i ∈ m.ids, i ∈ doc.wordIds ∨ (i ∉ doc.markIds ++ doc.anteIds ∧ i ≠ qual ns "root_node")) :
    ∃ g1 st1, execs g (markCalls ns doc (level, m)) = .ok g1 ∧ mmaxAddMarkable level st m.attrs = .ok st1 ∧ MmaxSim ns doc level g1 st1 ∧ ∀ n, g.HasNode n → g1.HasNode n := by
  have hns : st.g.ns = ns := h.upto.ns.trans h.state.ns
  obtain ⟨g1, st1, e1, f1, h1, n1, n1'⟩ := h.addNode (n := m.node) (ls := levelLayers ns level) (ad := .dict (tigerFeats ns m.attrs)) (attr := [("label", .atom (.str (qual m.id level)))])
    (at' := xmlAttrs ns m.attrs ++ [("label", strV (qual m.id level))]) (fun g ls => mergeLabel ho.attrs g _ ls) (keys_label ho.attrs) (by
      intro l hl
      simp only [levelLayers, List.mem_cons, List.not_mem_nil, or_false] at hl ⊢
      tauto) (fun l hl => hl) (fun l => ⟨fun _ hn => absurd (List.mem_map.2 ⟨_, by simp [levelLayers], rfl⟩) hn, fun hl => .inl ⟨(level, m), hm, rfl, hl⟩⟩)
    ⟨m.id, List.mem_append_left _ (List.mem_map.2 ⟨(level, m), hm, rfl⟩), rfl⟩
  obtain ⟨g2, st2, e2, f2, h2, n2⟩ := MmaxSim.spans hm (doc.toks m) h1 n1 (by
    intro t ht
    obtain ⟨i, hi, rfl⟩ := List.mem_map.1 ht
    exact h1.words i (by simpa using (List.mem_filter.1 hi).2))
  obtain ⟨g3, st3, e3, f3, h3, n3⟩ := MmaxSim.antes hm m.antes h2 ((n2 _).2 n1) (fun a ha => ⟨ha, (ho.chars a ha ':' (by simp)).1, (ho.chars a ha ':' (by simp)).2⟩)
  refine ⟨g3, st3, ?_, ?_, h3, fun n hn => n3 n ((n2 n).2 (n1' n hn))⟩
  · unfold markCalls
    rw [execs_cons, e1]
    show execs g1 _ = _
    rw [execs_append, e2]; exact e3
  · unfold mmaxAddMarkable
    rw [xmlAttr_ok ho.id, xmlAttr_ok ho.span, hns]
    simp only [bind, Except.bind]
    have f1' : mmaxAddNode st (.str (xval m.attrs "id")) (.dict (tigerFeats ns m.attrs)) [("label", .atom (.str (qual (xval m.attrs "id") level)))] = .ok st1 := f1
    have f2' : (doc.toks m).foldlM (mmaxAddSpan level (.str (xval m.attrs "id"))) st1 = .ok st2 := f2
    rw [f1']
    simp only [h1.span ho.toSpans hs]
    rw [f2']
    by_cases hne : m.antes = []
    · rw [hne] at f3
      have : st2 = st3 := Except.ok.inj f3
      rcases ho.without hne with e | e <;> rw [e] <;> simp [this, pure, Except.pure]
    · obtain ⟨s, e, hse, hst⟩ := ho.pointer hne
      rw [e]
      simp only [if_neg hse, hst]
      rw [splitChars_join _ _ (by simpa using hne) (by
        intro x hx
        obtain ⟨a, ha, rfl⟩ := List.mem_map.1 hx
        obtain ⟨c1, c2⟩ := ho.chars a ha ';' (by simp)
        unfold Markable.anteText
        cases hl : a.1 with
        | none => exact c1
        | some l => simp [c1, c2 l hl])]
      exact f3

theorem MmaxSim.readLevel : ∀ (ms : List Markable) {g : DG} {st : MmaxState}, MmaxSim ns doc level g st → (∀ m ∈ ms, (level, m) ∈ doc.marks ∧ m.Ok ∧ ∀ i ∈ m.ids, i ∈ doc.wordIds ∨ (i ∉ doc.markIds ++ doc.anteIds ∧ i ≠ qual ns "root_node")) →
    ∃ g1 st1, execs g ((ms.map (fun m => (level, m))).flatMap (markCalls ns doc)) = .ok g1 ∧ (ms.map Markable.attrs).foldlM (mmaxAddMarkable level) st = .ok st1 ∧ MmaxSim ns doc level g1 st1 ∧ ∀ n, g.HasNode n → g1.HasNode n := by
  intro ms
  induction ms with
  | nil => intro g st h _; exact ⟨g, st, rfl, rfl, h, fun _ h => h⟩
  | cons m ms ih =>
    intro g st h hm
    obtain ⟨g1, st1, e1, f1, h1, n1⟩ := h.mark (hm m (by simp)).1 (hm m (by simp)).2.1 (hm m (by simp)).2.2
    obtain ⟨g2, st2, e2, f2, h2, n2⟩ := ih h1 (fun x hx => hm x (by simp [hx]))
    refine ⟨g2, st2, ?_, ?_, h2, fun n hn => n2 n (n1 n hn)⟩
    · rw [List.map_cons, List.flatMap_cons, execs_append, e1]; exact e2
    · rw [List.map_cons, List.foldlM_cons, f1]; exact f2

end DG
end Dg
