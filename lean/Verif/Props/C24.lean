import Verif.Lemmas.MergeRenamed
import Verif.Props.C23
import Verif.Spec.Merge

/-! C24: merge_graphs imports everything of the merged graph. -/

namespace Dg
open Dict
namespace DG

theorem layeredNE_of_same {a a' : Attrs} (h : LayeredNE a) (hs : SameAttrs a a') : LayeredNE a' := by
  obtain ⟨xs, hx, hstr, hne⟩ := h
  obtain ⟨x, hxm⟩ := List.exists_mem_of_ne_nil xs hne
  obtain ⟨ys, hy, hym⟩ := (hs.2 x).1 ⟨xs, hx, hxm⟩
  refine ⟨ys, hy, ?_, List.ne_nil_of_mem hym⟩
  intro y hy'
  obtain ⟨zs, hz, hzm⟩ := (hs.2 y).2 ⟨ys, hy, hy'⟩
  rw [hx] at hz; injection hz with hz; injection hz with hz; subst hz
  exact hstr y hzm

theorem nodesLayeredNE_renamed {f : NodeId → NodeId} {g g' : DG} (h : Renamed f g g') (hl : NodesLayeredNE g) : NodesLayeredNE g' := by
  intro n' a' ha'
  obtain ⟨n, hn, rfl⟩ := h.noOtherNodes n' (hasNode_iff'.2 ⟨a', ha'⟩)
  obtain ⟨a, ha⟩ := hasNode_iff'.1 hn
  obtain ⟨b, hb, hs⟩ := h.nodes n a ha
  rw [ha'] at hb; injection hb with hb; subst hb
  exact layeredNE_of_same (hl n a ha) hs

theorem forall₂_imp_mem {α β : Type} {R S : α → β → Prop} {xs : List α} {ys : List β} (h : List.Forall₂ R xs ys) (hs : ∀ x y, x ∈ xs → R x y → S x y) :
    List.Forall₂ S xs ys := by
  induction h with
  | nil => exact .nil
  | cons hr _ ih => exact .cons (hs _ _ (by simp) hr) (ih (fun x y hx => hs x y (List.mem_cons_of_mem _ hx)))

/-- a pointwise relation between two lists of edges, the first without repetitions, is given by a function -/
theorem choose_copies {R : Edge → Edge → Prop} {es new : List Edge} (h : List.Forall₂ R es new) (nd : (es.map Edge.triple).Nodup) :
    ∃ φ : NodeId × NodeId × Key → Edge, new = es.map (fun e => φ (Edge.triple e)) ∧ ∀ e ∈ es, R e (φ (Edge.triple e)) := by
  induction h with
  | nil => exact ⟨fun t => (t.1, t.2.1, t.2.2, []), rfl, by simp⟩
  | @cons e e' es new hr _ ih =>
    simp only [List.map_cons, List.nodup_cons] at nd
    obtain ⟨φ, h1, h2⟩ := ih nd.2
    have hne : ∀ x ∈ es, Edge.triple x ≠ Edge.triple e := by
      intro x hx hxe; exact nd.1 (hxe ▸ List.mem_map_of_mem hx)
    refine ⟨fun t => if t = Edge.triple e then e' else φ t, ?_, ?_⟩
    · simp only [List.map_cons, if_true]
      congr 1
      rw [h1]
      apply List.map_congr_left
      intro x hx
      rw [if_neg (hne x hx)]
    · intro x hx
      rcases List.mem_cons.1 hx with rfl | hx
      · simpa using hr
      · simp only [if_neg (hne x hx)]; exact h2 x hx

/-- the effect of merging, once the tokens of the other graph have been renamed -/
theorem merge_imports_core (g other : DG) (hr : Inv g) (ho : Inv other) (hlg : NodesLayered False g) (hlo : NodesLayeredNE other)
    (hroot : ¬ g.HasNode other.root) (hor : other.HasNode other.root) (hgr : ¬ other.HasNode g.root) (hgt : g.root ∉ g.tokens)
    (hin : ∀ u k, ¬ other.HasEdge u other.root k)
    (own : Dict String Atom) (hown : g.nodeAttr g.root "metadata" = some (.dict own)) (hom : ∀ v, other.nodeAttr other.root "metadata" = some v → ∃ d, v = .dict d)
    (s : Sched) (m : Dict NodeId NodeId) (hm : createTokenMapping other g = .ok m) (o' o2 : DG) (e1 : other.renameTokens m s = (o', none)) (e2 : Renamed (applyMap m) other o2)
    (e3 : o2 = { o' with tokens := other.tokens }) (hfroot : applyMap m other.root = other.root) (f3 : ∀ n, applyMap m n = n ∨ applyMap m n ∈ g.tokens) :
    ∃ g' κ, g.mergeGraphs other s = (g', none) ∧ Imported (applyMap m) κ g other g' ∧
      g'.nodeAttr g.root "metadata" = some (.dict (match other.nodeAttr other.root "metadata" with | some (.dict d) => upd own d | _ => own)) ∧
      MergedWith ((g.noteRoot other).updRenamed m) o' g' := by
  -- the renamed graph
  have hio : Inv o' := by have := (ran_renameTokens ho.inv m s).inv ho.inv; rw [e1] at this; exact this
  have hrooto : o'.root = other.root := by have := (ran_renameTokens ho.inv m s).root.1; rw [e1] at this; exact this
  have hnodes : ∀ n, o'.nodeAttrs n = o2.nodeAttrs n := by subst e3; intro n; rfl
  have hnode : ∀ n, o'.HasNode n ↔ o2.HasNode n := by subst e3; intro n; exact Iff.rfl
  have hedges : ∀ u v k, o'.edgeAttrs u v k = o2.edgeAttrs u v k := by subst e3; intro u v k; rfl
  have hlo' : NodesLayeredNE o' := by intro n a ha; exact nodesLayeredNE_renamed e2 hlo n a (by rw [← hnodes]; exact ha)
  have hfr : ∀ n, other.HasNode n → applyMap m n = other.root → n = other.root := by
    intro n hn h
    exact e2.injective n _ hn hor (h.trans hfroot.symm)
  have hor' : o'.HasNode o'.root := by
    rw [hrooto, hnode]
    have := e2.hasNode hor
    rwa [hfroot] at this
  have hgr' : ¬ o'.HasNode g.root := by
    rw [hnode]; intro h
    obtain ⟨n, hn, hfn⟩ := e2.noOtherNodes _ h
    rcases f3 n with h' | h'
    · rw [h'] at hfn; subst hfn; exact hgr hn
    · rw [hfn] at h'; exact hgt h'
  have hin' : ∀ u k, ¬ o'.HasEdge u o'.root k := by
    intro u k h
    rw [hrooto] at h
    unfold HasEdge at h; rw [hedges] at h
    obtain ⟨u0, v0, h1, h2, h3⟩ := e2.noOtherEdges _ _ _ h
    obtain ⟨a, ha⟩ := Option.isSome_iff_exists.1 h1
    have := hfr v0 (edge_ends ho.inv.wf ha).2 h3
    subst this
    exact hin u0 k h1
  have hmeta : ∀ x, x ≠ "layers" → o'.nodeAttr o'.root x = other.nodeAttr other.root x := by
    intro x hx
    have := nodeAttr_renamed e2 hor (x := x) hx
    rw [hfroot] at this
    rw [hrooto, ← this]; unfold nodeAttr; rw [hnodes]
  have hi1 : Inv ((g.noteRoot other).updRenamed m) := ((ran_noteRoot g other).trans (ran_updRenamed _ m)).inv hr.inv
  obtain ⟨g', e4, hM⟩ := mergeRenamed_spec (g := (g.noteRoot other).updRenamed m) (o := o') hi1 hio hlg hlo' (by rw [hrooto]; exact hroot) hor' hgr' hin'
    (own := own) hown (by rw [hmeta _ (by decide)]; exact hom)
  have hmerge : g.mergeGraphs other s = (g', none) := by
    unfold mergeGraphs
    simp only [createTokenMapping_noteRoot, hm, e1, e4]
  obtain ⟨new1, new2, p1, p2, p3, p4, p5, p6⟩ := hM.edges
  -- the list of all edges of the renamed graph
  have hsplit : ∀ e ∈ o'.edges.filter (fun e => decide (e.1 ≠ o'.root)), e.1 ≠ o'.root := by
    intro e he; simpa using (List.mem_filter.1 he).2
  have hout : ∀ e ∈ o'.outEdges o'.root, e.1 = o'.root := by
    intro e he; rw [outEdges_eq_filter hio.wf] at he; simpa using (List.mem_filter.1 he).2
  have nd : ((o'.edges.filter (fun e => decide (e.1 ≠ o'.root)) ++ o'.outEdges o'.root).map Edge.triple).Nodup := by
    rw [List.map_append, List.nodup_append]
    refine ⟨(List.Sublist.map Edge.triple List.filter_sublist).nodup (edges_triple_nodup hio.wf), outEdges_triple_nodup hio.wf _, ?_⟩
    intro t ht1 t' ht2 htt
    obtain ⟨e, he, rfl⟩ := List.mem_map.1 ht1
    obtain ⟨e', he', rfl⟩ := List.mem_map.1 ht2
    apply hsplit e he
    rw [show e.1 = e'.1 from congrArg (fun t : NodeId × NodeId × Key => t.1) htt]
    exact hout e' he'
  obtain ⟨φ, q1, q2⟩ := choose_copies (R := fun e e' => (e.1 ≠ o'.root → EdgeCopy e e') ∧ (e.1 = o'.root → RootCopy g.root g.ns e e'))
    (es := o'.edges.filter (fun e => decide (e.1 ≠ o'.root)) ++ o'.outEdges o'.root) (new := new1 ++ new2) (by
      have p1' := forall₂_imp_mem p1 (fun x y hx hxy => (⟨fun _ => hxy, fun h => absurd h (hsplit x hx)⟩ :
        (x.1 ≠ o'.root → EdgeCopy x y) ∧ (x.1 = o'.root → RootCopy g.root g.ns x y)))
      have p2' := forall₂_imp_mem p2 (fun x y hx hxy => (⟨fun h => absurd (hout x hx) h, fun _ => hxy⟩ :
        (x.1 ≠ o'.root → EdgeCopy x y) ∧ (x.1 = o'.root → RootCopy g.root g.ns x y)))
      exact List.rel_append p1' p2') nd
  have hall : ∀ u v k a, o'.edgeAttrs u v k = some a →
      (u, v, k, a) ∈ o'.edges.filter (fun e => decide (e.1 ≠ o'.root)) ++ o'.outEdges o'.root := by
    intro u v k a ha
    rw [List.mem_append]
    by_cases hu : u = o'.root
    · right; subst hu; exact (mem_outEdges hio.wf _ _ _ _ _).2 ⟨rfl, ha⟩
    · left; exact List.mem_filter.2 ⟨(mem_edges_iff hio.wf u v k a).2 ha, by simpa using hu⟩
  have hall' : ∀ e ∈ o'.edges.filter (fun e => decide (e.1 ≠ o'.root)) ++ o'.outEdges o'.root, o'.edgeAttrs e.1 e.2.1 e.2.2.1 = some e.2.2.2 := by
    intro e he
    obtain ⟨u, v, k, a⟩ := e
    rcases List.mem_append.1 he with he | he
    · exact (mem_edges_iff hio.wf u v k a).1 (List.mem_filter.1 he).1
    · obtain ⟨h1, h2⟩ := (mem_outEdges hio.wf _ _ _ _ _).1 he
      simp only; rw [h1]; exact h2
  let κ : NodeId → NodeId → Key → Key := fun u v k => (φ (applyMap m u, applyMap m v, k)).2.2.1
  -- the copy of an edge
  have hcopy : ∀ u v k a, other.edgeAttrs u v k = some a → ∃ b, o'.edgeAttrs (applyMap m u) (applyMap m v) k = some b ∧ SameAttrs a b ∧
      (u = other.root ↔ applyMap m u = o'.root) ∧
      (φ (applyMap m u, applyMap m v, k)).1 = newSource (applyMap m) g other u ∧ (φ (applyMap m u, applyMap m v, k)).2.1 = applyMap m v := by
    intro u v k a ha
    obtain ⟨b, hb, hsb⟩ := e2.edges u v k a ha
    rw [← hedges] at hb
    have hiff : u = other.root ↔ applyMap m u = o'.root := by
      rw [hrooto]
      constructor
      · rintro rfl; exact hfroot
      · exact hfr u (edge_ends ho.inv.wf ha).1
    have hq := q2 _ (hall _ _ _ _ hb)
    refine ⟨b, hb, hsb, hiff, ?_⟩
    unfold newSource
    by_cases hu : u = other.root
    · have h := hq.2 (hiff.1 hu)
      rw [if_pos hu]; exact ⟨h.1, h.2.1⟩
    · have h := hq.1 (fun h => hu (hiff.2 h))
      rw [if_neg hu]; exact ⟨h.1, h.2.1⟩
  have htriple : ∀ u v k a, other.edgeAttrs u v k = some a →
      Edge.triple (φ (applyMap m u, applyMap m v, k)) = (newSource (applyMap m) g other u, applyMap m v, κ u v k) := by
    intro u v k a ha
    obtain ⟨_, _, _, _, h1, h2⟩ := hcopy u v k a ha
    unfold Edge.triple; rw [h1, h2]
  have hnew : ∀ u v k a, other.edgeAttrs u v k = some a → φ (applyMap m u, applyMap m v, k) ∈ new1 ++ new2 := by
    intro u v k a ha
    obtain ⟨b, hb, _⟩ := hcopy u v k a ha
    rw [q1]
    exact List.mem_map.2 ⟨_, hall _ _ _ _ hb, rfl⟩
  refine ⟨g', κ, hmerge, ⟨?_, ?_, ?_, ?_, ?_, ?_⟩, ?_, hM⟩
  · -- nodes
    intro n hn hne
    have h1 : o'.HasNode (applyMap m n) := (hnode _).2 (e2.hasNode hn)
    obtain ⟨h2, h3, h4⟩ := hM.copies _ h1 (by rw [hrooto]; exact fun h => hne (hfr n hn h))
    refine ⟨h2, ?_, ?_⟩
    · intro x v hx hv'
      apply h3 x v hx
      have : o'.nodeAttr (applyMap m n) x = o2.nodeAttr (applyMap m n) x := by unfold nodeAttr; rw [hnodes]
      rw [this, nodeAttr_renamed e2 hn hx]; exact hv'
    · intro l hl
      apply h4
      obtain ⟨a, ha, hal⟩ := hl
      obtain ⟨b, hb, hsb⟩ := e2.nodes n a ha
      exact ⟨b, by rw [hnodes]; exact hb, (hsb.2 l).1 hal⟩
  · rw [← hrooto]; exact hM.noRoot
  · intro n' hn'
    rcases hM.nodes n' hn' with h | h
    · exact Or.inl h
    · right
      obtain ⟨n, h1, h2⟩ := e2.noOtherNodes n' ((hnode _).1 h)
      refine ⟨n, h1, ?_, h2⟩
      rintro rfl
      rw [hfroot] at h2
      subst h2
      rw [← hrooto] at hn'
      exact hM.noRoot hn'
  · -- edges
    intro u v k a ha
    obtain ⟨b, hb, hsb, hiff, h1, h2⟩ := hcopy u v k a ha
    have hmem := hnew u v k a ha
    have ht3 := htriple u v k a ha
    unfold Edge.triple at ht3
    simp only [Prod.mk.injEq] at ht3
    obtain ⟨t1, t2, t3⟩ := ht3
    refine ⟨?_, (φ (applyMap m u, applyMap m v, k)).2.2.2, ?_, ?_, ?_, ?_⟩
    · have := p4 _ hmem
      rw [t1, t2, t3] at this; exact this
    · have := p5 _ hmem
      rw [t1, t2, t3] at this; exact this
    · intro x hx
      have hq := q2 _ (hall _ _ _ _ hb)
      rw [hsb.1 x hx]
      by_cases hu : u = other.root
      · exact (hq.2 (hiff.1 hu)).2.2.1 x hx
      · exact ((hq.1 (fun h => hu (hiff.2 h))).2.2.1 x hx).symm
    · intro hu l
      have hq := q2 _ (hall _ _ _ _ hb)
      rw [hsb.2 l]
      exact ((hq.1 (fun h => hu (hiff.2 h))).2.2.2 l).symm
    · intro hu l
      have hq := q2 _ (hall _ _ _ _ hb)
      exact (hq.2 (hiff.1 hu)).2.2.2 l
  · -- different edges
    intro u v k u' v' k' h h' heq
    obtain ⟨a, ha⟩ := Option.isSome_iff_exists.1 h
    obtain ⟨a', ha'⟩ := Option.isSome_iff_exists.1 h'
    obtain ⟨b, hb, _⟩ := hcopy u v k a ha
    obtain ⟨b', hb', _⟩ := hcopy u' v' k' a' ha'
    rw [← htriple u v k a ha, ← htriple u' v' k' a' ha'] at heq
    rw [q1, List.map_map] at p3
    have := List.inj_on_of_nodup_map p3 (hall _ _ _ _ hb) (hall _ _ _ _ hb') heq
    simp only [Prod.mk.injEq] at this
    obtain ⟨i1, i2, i3, _⟩ := this
    obtain ⟨n1, n2⟩ := edge_ends ho.inv.wf ha
    obtain ⟨n3, n4⟩ := edge_ends ho.inv.wf ha'
    rw [e2.injective _ _ n1 n3 i1, e2.injective _ _ n2 n4 i2, i3]
  · -- no other edges
    intro u' v' k' h
    by_cases hmem : (u', v', k') ∈ (new1 ++ new2).map Edge.triple
    · right
      obtain ⟨e', he', htr⟩ := List.mem_map.1 hmem
      rw [q1] at he'
      obtain ⟨e, he, rfl⟩ := List.mem_map.1 he'
      have hE : o2.HasEdge e.1 e.2.1 e.2.2.1 := by unfold HasEdge; rw [← hedges, hall' e he]; rfl
      obtain ⟨u, v, h1, h2, h3⟩ := e2.noOtherEdges _ _ _ hE
      obtain ⟨a, ha⟩ := Option.isSome_iff_exists.1 h1
      have ht3 := htriple u v e.2.2.1 a ha
      rw [h2, h3, show (e.1, e.2.1, e.2.2.1) = Edge.triple e from rfl, htr] at ht3
      simp only [Prod.mk.injEq] at ht3
      exact ⟨u, v, e.2.2.1, h1, ht3.1.symm, by rw [h3]; exact ht3.2.1.symm, ht3.2.2.symm⟩
    · left
      have := p6 u' v' k' hmem
      unfold HasEdge at h; rw [this] at h; exact h
  · have h := hM.metadata own hown
    rw [hmeta _ (by decide)] at h
    exact h

/-- **C24, partial**.  `g.merge_graphs(other)` for two documents with the same tokenization and different node and root IDs succeeds, whatever order Python processes the labels in, and imports
`other`: with `f` renaming other's i-th token to g's i-th token (and nothing else), all nodes but the root arrive with all attributes and layers, all edges arrive as new edges with
all attributes, edges leaving other's root now leave g's root, other's root is gone and nothing else is added.
Missing: edges leaving the root do not keep their layers but get the namespace of `g` (`c24_fails_for_layers_of_root_edges`); documents sharing token IDs
(`c24_fails_for_equal_token_ids`). -/
theorem c24_merge_imports_partial (g other : DG) (hr : Inv g) (ho : Inv other) (hlg : NodesLayered False g) (hlo : NodesLayeredNE other)
    (strs : List String) (ht : g.HasTokens strs) (hot : other.HasTokens strs) (ndg : g.tokens.Nodup) (ndo : other.tokens.Nodup)
    (hfresh : ∀ t ∈ g.tokens, ¬ other.HasNode t) (hself : (∀ t ∈ g.tokens, t.truthy = true) ∨ ∀ u k, ¬ other.HasEdge u u k)
    (hroot : ¬ g.HasNode other.root) (hor : other.HasNode other.root) (hgr : ¬ other.HasNode g.root) (hgt : g.root ∉ g.tokens) (hrt : other.root ∉ other.tokens)
    (hin : ∀ u k, ¬ other.HasEdge u other.root k)
    (own : Dict String Atom) (hown : g.nodeAttr g.root "metadata" = some (.dict own)) (hom : ∀ v, other.nodeAttr other.root "metadata" = some v → ∃ d, v = .dict d)
    (s : Sched) (hs : ∀ m, createTokenMapping other g = .ok m → s.Valid m) :
    ∃ g' f κ, g.mergeGraphs other s = (g', none) ∧
      (∀ (i : Nat) t t', other.tokens[i]? = some t → g.tokens[i]? = some t' → f t = t') ∧ (∀ n, n ∉ other.tokens → f n = n) ∧
      Imported f κ g other g' ∧
      g'.nodeAttr g.root "metadata" = some (.dict (match other.nodeAttr other.root "metadata" with | some (.dict d) => upd own d | _ => own)) := by
  obtain ⟨m, hm, hk, hv, _⟩ := mapping_facts ht hot ndg ndo
  obtain ⟨o', e1, o2, e2, e3, _⟩ := renameTokens_fresh ho hlo ht hot ndg ndo hfresh hself hm s (hs m hm)
  obtain ⟨m', c1, c2, c3⟩ := c21_maps_position_by_position other g strs hot ht ndo
  rw [hm] at c1; injection c1 with c1; subst c1
  have f1 : ∀ (i : Nat) t t', other.tokens[i]? = some t → g.tokens[i]? = some t' → applyMap m t = t' := by
    intro i t t' h1 h2; unfold applyMap; rw [c3 i t t' h1 h2]; rfl
  have f2 : ∀ n, n ∉ other.tokens → applyMap m n = n := by
    intro n hn; unfold applyMap
    rw [(find_eq_none_iff _ _).2 (by rw [hk]; exact hn)]; rfl
  have f3 : ∀ n, applyMap m n = n ∨ applyMap m n ∈ g.tokens := by
    intro n
    unfold applyMap
    cases hf : find m n with
    | none => left; rfl
    | some x => right; simp only [Option.getD_some]; rw [← hv]; exact List.mem_map_of_mem (f := Prod.snd) (find_some_mem hf)
  obtain ⟨g', κ, h1, h2, h3, -⟩ := merge_imports_core g other hr ho hlg hlo hroot hor hgr hgt hin own hown hom s m hm o' o2 e1 e2 e3 (f2 _ hrt) f3
  exact ⟨g', applyMap m, κ, h1, f1, f2, h2, h3⟩

theorem layeredNE_mergeDoc_b : NodesLayeredNE (mergeDoc "b" "rb" "b1" "b2" "bs") := by
  apply layered_of_all
  have : (mergeDoc "b" "rb" "b1" "b2" "bs").nodes = [(.str "rb", [("layers", .set [.str "b"]), ("metadata", .dict [])]),
    (.str "b1", [("b:token", .atom (.str "x")), ("layers", .set [.str "b"])]), (.str "b2", [("b:token", .atom (.str "y")), ("layers", .set [.str "b"])]),
    (.str "bs", [("b:cat", .atom (.str "bs")), ("layers", .set [.str "b", .str "b:span"])])] := by decide +kernel
  rw [this]
  intro p hp
  simp at hp
  rcases hp with rfl | rfl | rfl | rfl <;> simp

theorem layered_mergeDoc_a : NodesLayered False (mergeDoc "a" "ra" "a1" "a2" "as") := by
  have : (mergeDoc "a" "ra" "a1" "a2" "as").nodes = [(.str "ra", [("layers", .set [.str "a"]), ("metadata", .dict [])]),
    (.str "a1", [("a:token", .atom (.str "x")), ("layers", .set [.str "a"])]), (.str "a2", [("a:token", .atom (.str "y")), ("layers", .set [.str "a"])]),
    (.str "as", [("a:cat", .atom (.str "as")), ("layers", .set [.str "a", .str "a:span"])])] := by decide +kernel
  intro n a ha
  have hm := find_some_mem (show find (mergeDoc "a" "ra" "a1" "a2" "as").nodes n = some a from ha)
  rw [this] at hm
  simp at hm
  unfold LayeredB
  rcases hm with ⟨_, rfl⟩ | ⟨_, rfl⟩ | ⟨_, rfl⟩ | ⟨_, rfl⟩ <;> simp

/-- the hypotheses are met by two annotations of the text "x y", each with tokens, a span node, a span edge and a root edge -/
example : ∃ g' f κ, (mergeDoc "a" "ra" "a1" "a2" "as").mergeGraphs (mergeDoc "b" "rb" "b1" "b2" "bs") mergeSched = (g', none) ∧
    Imported f κ (mergeDoc "a" "ra" "a1" "a2" "as") (mergeDoc "b" "rb" "b1" "b2" "bs") g' := by
  have htok : ∀ (ns r t1 t2 sp : String), (mergeDoc ns r t1 t2 sp).tokens = [.str t1, .str t2] →
      (mergeDoc ns r t1 t2 sp).TokenStr (.str t1) "x" → (mergeDoc ns r t1 t2 sp).TokenStr (.str t2) "y" → (mergeDoc ns r t1 t2 sp).HasTokens ["x", "y"] := by
    intro ns r t1 t2 sp h h1 h2
    unfold HasTokens; rw [h]; exact .cons h1 (.cons h2 .nil)
  have hmap : createTokenMapping (mergeDoc "b" "rb" "b1" "b2" "bs") (mergeDoc "a" "ra" "a1" "a2" "as") =
    .ok [(.str "b1", .str "a1"), (.str "b2", .str "a2")] := by decide +kernel
  obtain ⟨g', f, κ, h1, _, _, h2, _⟩ := c24_merge_imports_partial (mergeDoc "a" "ra" "a1" "a2" "as") (mergeDoc "b" "rb" "b1" "b2" "bs")
    (Reachable.inv ⟨"", "a", some (.str "ra"), _, by decide, rfl⟩) (Reachable.inv ⟨"", "b", some (.str "rb"), _, by decide, rfl⟩) layered_mergeDoc_a layeredNE_mergeDoc_b ["x", "y"]
    (htok _ _ _ _ _ (by decide +kernel) (show _ = _ by decide +kernel) (show _ = _ by decide +kernel))
    (htok _ _ _ _ _ (by decide +kernel) (show _ = _ by decide +kernel) (show _ = _ by decide +kernel))
    (by decide +kernel) (by decide +kernel) (by decide +kernel) (Or.inl (by decide +kernel)) (by decide +kernel) (by decide +kernel) (by decide +kernel) (by decide +kernel)
    (by decide +kernel)
    (by
      intro u k h
      have wf : WF (mergeDoc "b" "rb" "b1" "b2" "bs") :=
        (Reachable.inv (g := mergeDoc "b" "rb" "b1" "b2" "bs") ⟨"", "b", some (.str "rb"), _, by decide, rfl⟩).wf
      obtain ⟨a, ha⟩ := Option.isSome_iff_exists.1 h
      have := (mem_edges_iff wf _ _ _ _).2 ha
      rw [show (mergeDoc "b" "rb" "b1" "b2" "bs").edges =
        [(.str "rb", .str "bs", .int 0, [("edge_type", .atom (.str "dominates")), ("layers", .set [.str "b:rootedge"])]),
         (.str "bs", .str "b1", .int 0, [("edge_type", .atom (.str "spans")), ("layers", .set [.str "b:e"])])] by decide +kernel,
        show (mergeDoc "b" "rb" "b1" "b2" "bs").root = .str "rb" by decide +kernel] at this
      simp at this)
    [] (by decide +kernel)
    (by
      rw [show (mergeDoc "b" "rb" "b1" "b2" "bs").nodeAttr (mergeDoc "b" "rb" "b1" "b2" "bs").root "metadata" = some (.dict []) by decide +kernel]
      intro v h; injection h with h; exact ⟨_, h.symm⟩)
    mergeSched (by
      intro m hm
      rw [hmap] at hm; injection hm with hm; subst hm
      refine ⟨?_, List.Perm.swap _ _ _⟩
      unfold RelabelOrder
      rw [if_neg (by rintro ⟨x, hx1, hx2⟩; simp [keys, vals] at hx1 hx2; rcases hx1 with rfl | rfl <;> simp at hx2)]
      exact ⟨_, rfl, List.Perm.refl _⟩)
  exact ⟨g', f, κ, h1, h2⟩

/-- **C24 is violated** for the layers of edges leaving the root: the edge `rb -> bs` is in layer `b:rootedge`, after merging the edge `ra -> bs` is only in layer `a`. -/
theorem c24_fails_for_layers_of_root_edges :
    let g := mergeDoc "a" "ra" "a1" "a2" "as"
    let o := mergeDoc "b" "rb" "b1" "b2" "bs"
    let g' := (g.mergeGraphs o mergeSched).1
    o.edgeAttrs (.str "rb") (.str "bs") (.int 0) = some [("edge_type", .atom (.str "dominates")), ("layers", .set [.str "b:rootedge"])] ∧
    (g.mergeGraphs o mergeSched).2 = none ∧
    g'.edges.filter (fun e => decide (e.2.1 = .str "bs")) = [(.str "ra", .str "bs", .int 0, [("edge_type", .atom (.str "dominates")), ("layers", .set [.str "a"])])] := by
  decide +kernel

/-- **C24 is violated** for documents that share token IDs: the tokens' attributes in the other graph are lost ("renaming" a node to its own name deletes it), here `b:pos`. -/
theorem c24_fails_for_equal_token_ids :
    let g := mergeDoc "a" "ra" "t1" "t2" "as"
    let o := (mergeDoc "b" "rb" "t1" "t2" "bs").run [.setAttr (.str "t2") "b:pos" (.atom (.str "NN"))]
    let r := g.mergeGraphs o ⟨some [.str "t2", .str "t1"], [.str "t1", .str "t2"]⟩
    o.nodeAttr (.str "t2") "b:pos" = some (.atom (.str "NN")) ∧ r.2 = none ∧ r.1.nodeAttr (.str "t2") "b:pos" = none := by
  decide +kernel

/-- merging the same graph a second time adds all its edges again -/
theorem c24_merging_twice_duplicates_edges :
    let g := mergeDoc "a" "ra" "a1" "a2" "as"
    let o := mergeDoc "b" "rb" "b1" "b2" "bs"
    let g' := (g.mergeGraphs o mergeSched).1
    let g'' := (g'.mergeGraphs o mergeSched).1
    (g'.mergeGraphs o mergeSched).2 = none ∧ (g'.edges.filter (fun e => decide (e.1 = .str "bs"))).length = 1 ∧
    (g''.edges.filter (fun e => decide (e.1 = .str "bs"))).length = 2 := by
  decide +kernel

end DG
end Dg
