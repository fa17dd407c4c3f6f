import Verif.Props.C24
import Verif.Spec.Layered
import Verif.Model.Corpora

/-! Adding a layer to a document (C73, C74). -/

namespace Dg
open Dict
namespace DG

theorem mem_triples {g : DG} (wf : WF g) (u v : NodeId) (k : Key) : (u, v, k) ∈ g.edges.map Edge.triple ↔ g.HasEdge u v k := by
  constructor
  · intro h
    obtain ⟨⟨u', v', k', a⟩, he, ht⟩ := List.mem_map.1 h
    simp only [Edge.triple, Prod.mk.injEq] at ht
    obtain ⟨rfl, rfl, rfl⟩ := ht
    unfold HasEdge
    rw [(mem_edges_iff wf _ _ _ _).1 he]; rfl
  · intro h
    obtain ⟨a, ha⟩ := Option.isSome_iff_exists.1 h
    exact List.mem_map.2 ⟨(u, v, k, a), (mem_edges_iff wf _ _ _ _).2 ha, rfl⟩

theorem renamed_count {f : NodeId → NodeId} {g g' : DG} (h : Renamed f g g') (wf : WF g) (wf' : WF g') : g'.edges.length = g.edges.length := by
  have hn : ((g.edges.map Edge.triple).map (fun t => (f t.1, f t.2.1, t.2.2))).Nodup := by
    apply List.Nodup.map_on _ (edges_triple_nodup wf)
    rintro ⟨u, v, k⟩ h1 ⟨u', v', k'⟩ h2 he
    have h1 := (mem_triples wf _ _ _).1 h1
    have h2 := (mem_triples wf _ _ _).1 h2
    obtain ⟨a, ha⟩ := Option.isSome_iff_exists.1 h1
    obtain ⟨b, hb⟩ := Option.isSome_iff_exists.1 h2
    simp only [Prod.mk.injEq] at he
    obtain ⟨p, q⟩ := edge_ends wf ha
    obtain ⟨p', q'⟩ := edge_ends wf hb
    rw [h.injective _ _ p p' he.1, h.injective _ _ q q' he.2.1, he.2.2]
  have hp : (g'.edges.map Edge.triple).Perm ((g.edges.map Edge.triple).map (fun t => (f t.1, f t.2.1, t.2.2))) := by
    rw [List.perm_ext_iff_of_nodup (edges_triple_nodup wf') hn]
    rintro ⟨u, v, k⟩
    rw [mem_triples wf']
    constructor
    · intro hE
      obtain ⟨u0, v0, h1, rfl, rfl⟩ := h.noOtherEdges _ _ _ hE
      exact List.mem_map.2 ⟨(u0, v0, k), (mem_triples wf _ _ _).2 h1, rfl⟩
    · intro hm
      obtain ⟨⟨u0, v0, k0⟩, h1, h2⟩ := List.mem_map.1 hm
      simp only [Prod.mk.injEq] at h2
      obtain ⟨rfl, rfl, rfl⟩ := h2
      obtain ⟨a, ha⟩ := Option.isSome_iff_exists.1 ((mem_triples wf _ _ _).1 h1)
      obtain ⟨a', ha', -⟩ := h.edges _ _ _ _ ha
      unfold HasEdge; rw [ha']; rfl
  simpa using hp.length_eq

theorem merged_count {g o g' : DG} (h : MergedWith g o g') (wf : WF g) (wfo : WF o) (wf' : WF g') : g'.edges.length = g.edges.length + o.edges.length := by
  obtain ⟨new1, new2, p1, p2, p3, p4, p5, p6⟩ := h.edges
  have hn : ((g.edges.map Edge.triple) ++ (new1 ++ new2).map Edge.triple).Nodup := by
    rw [List.nodup_append]
    refine ⟨edges_triple_nodup wf, p3, ?_⟩
    rintro ⟨u, v, k⟩ h1 t h2 rfl
    obtain ⟨e, he, ht⟩ := List.mem_map.1 h2
    simp only [Edge.triple, Prod.mk.injEq] at ht
    apply p4 e he
    rw [ht.1, ht.2.1, ht.2.2]
    exact (mem_triples wf _ _ _).1 h1
  have hp : (g'.edges.map Edge.triple).Perm ((g.edges.map Edge.triple) ++ (new1 ++ new2).map Edge.triple) := by
    rw [List.perm_ext_iff_of_nodup (edges_triple_nodup wf') hn]
    rintro ⟨u, v, k⟩
    rw [mem_triples wf', List.mem_append, mem_triples wf]
    by_cases hm : (u, v, k) ∈ (new1 ++ new2).map Edge.triple
    · refine ⟨fun _ => .inr hm, fun _ => ?_⟩
      obtain ⟨e, he, ht⟩ := List.mem_map.1 hm
      simp only [Edge.triple, Prod.mk.injEq] at ht
      unfold HasEdge
      rw [← ht.1, ← ht.2.1, ← ht.2.2, p5 e he]; rfl
    · have := p6 u v k hm
      unfold HasEdge
      rw [this]
      exact ⟨.inl, fun h => h.elim id (fun h => absurd h hm)⟩
  have hl := hp.length_eq
  simp only [List.length_map, List.length_append] at hl
  rw [hl, ← p1.length_eq, ← p2.length_eq, outEdges_eq_filter wfo, List.length_eq_length_filter_add (l := o.edges) (fun e => decide (e.1 ≠ o.root))]
  simp only [ne_eq, decide_not, Bool.not_not]

theorem layerIn_of_imported {f : NodeId → NodeId} {κ : NodeId → NodeId → Key → Key} {g o g' : DG} (h : Imported f κ g o g') (hf : ∀ n, f n = asIn g'.tokens o n)
    (hroot : g'.root = g.root) (hns : g'.ns = g.ns) : LayerIn [] o g' := by
  have hsrc : ∀ u, newSource f g o u = startsAt o g' u := by
    intro u; unfold newSource startsAt; rw [hroot, hf]
  refine ⟨?_, ?_, h.rootGone, κ, ?_, ?_⟩
  · intro n hn hne
    rw [← hf]
    exact ⟨(h.nodes n hn hne).1, (h.nodes n hn hne).2.2⟩
  · intro n x v hne hx _ hv
    obtain ⟨a, ha⟩ := nodeAttr_hasNode hv
    rw [← hf]
    exact .inl ((h.nodes n (hasNode_iff'.2 ⟨a, ha⟩) hne).2.1 x v hx hv)
  · intro u v k a ha
    obtain ⟨-, a', h1, h2⟩ := h.edges u v k a ha
    rw [← hsrc, ← hf, hns]
    exact ⟨a', h1, h2⟩
  · intro u v k u' v' k' h1 h2 he
    rw [← hsrc, ← hf, ← hsrc, ← hf] at he
    exact h.differentEdges u v k u' v' k' h1 h2 he

theorem onlyFrom_of_imported {f : NodeId → NodeId} {κ : NodeId → NodeId → Key → Key} {g o g' : DG} (h : Imported f κ g o g') (hf : ∀ n, f n = asIn g'.tokens o n)
    (hroot : g'.root = g.root) (hc : g'.edges.length = g.edges.length + o.edges.length) : OnlyFrom [o] g g' := by
  have hsrc : ∀ u, newSource f g o u = startsAt o g' u := by
    intro u; unfold newSource startsAt; rw [hroot, hf]
  refine ⟨?_, ?_, by simpa using hc⟩
  · intro n' hn'
    rcases h.noOtherNodes n' hn' with h | ⟨n, h1, h2, h3⟩
    · exact .inl h
    · exact .inr ⟨o, List.mem_singleton.2 rfl, n, h1, h2, by rw [← hf]; exact h3⟩
  · intro u' v' k' hE
    rcases h.noOtherEdges _ _ _ hE with h | ⟨u, v, k, h1, h2, h3, -⟩
    · exact .inl h
    · exact .inr ⟨o, List.mem_singleton.2 rfl, u, v, k, h1, by rw [← hsrc]; exact h2, by rw [← hf]; exact h3⟩

/-- nothing is lost by a merge -/
theorem keptIn_of_merged {g o g' o' o2 : DG} {m : Dict NodeId NodeId} {s : Sched} (hr : Inv g) (ho : Inv o) (hroot : ¬ g.HasNode o.root)
    (hm : createTokenMapping o g = .ok m) (e1 : o.renameTokens m s = (o', none)) (e2 : Renamed (applyMap m) o o2) (e3 : o2 = { o' with tokens := o.tokens })
    (hf : ∀ n, applyMap m n = asIn g'.tokens o n) (hg : g.mergeGraphs o s = (g', none)) (hM : MergedWith ((g.noteRoot o).updRenamed m) o' g') : KeptIn [o] g g' := by
  have hk := c23_merge_keeps_graph_partial g o hr ho s hroot
  simp only [hg] at hk
  refine ⟨fun n hn => ⟨hk.1.nodes n hn, hk.2.1 n⟩, ?_, ?_⟩
  · intro n x v hx hx' hv
    have hrooto : o'.root = o.root := by have := (ran_renameTokens ho.inv m s).root.1; rw [e1] at this; exact this
    have hio : Inv o' := by have := (ran_renameTokens ho.inv m s).inv ho.inv; rw [e1] at this; exact this
    have hi1 : Inv ((g.noteRoot o).updRenamed m) := ((ran_noteRoot g o).trans (ran_updRenamed _ m)).inv hr.inv
    have hn : g.HasNode n := by obtain ⟨a, ha⟩ := nodeAttr_hasNode hv; exact hasNode_iff'.2 ⟨a, ha⟩
    have hg2 : ((g.noteRoot o).updRenamed m).mergeRenamed o' = (g', none) := by
      unfold mergeGraphs at hg
      simp only [createTokenMapping_noteRoot, hm, e1] at hg
      exact hg
    by_cases hc : o'.nodeAttr n x = none
    · left
      have := keepsAttr_mergeRenamed (T := fun t => t = n) (x := x) hi1 hio hx' hx (by rintro rfl; rw [hrooto] at hn; exact hroot hn)
        (fun t v v' ht _ h2 => by subst ht; rw [hc] at h2; cases h2)
      rw [hg2] at this
      exact this n v rfl hv
    · right
      obtain ⟨v', hv'⟩ := Option.ne_none_iff_exists'.1 hc
      have hv2 : o2.nodeAttr n x = some v' := by subst e3; exact hv'
      obtain ⟨a, ha⟩ := nodeAttr_hasNode hv2
      obtain ⟨n0, h1, h2⟩ := e2.noOtherNodes n (hasNode_iff'.2 ⟨a, ha⟩)
      refine ⟨o, List.mem_singleton.2 rfl, n0, by rw [← hf]; exact h2, ?_⟩
      rw [← nodeAttr_renamed e2 h1 hx, h2, hv2]
      simp
  · intro u v k hE
    obtain ⟨new1, new2, p1, p2, p3, p4, p5, p6⟩ := hM.edges
    refine p6 u v k ?_
    intro hm
    obtain ⟨e, he, ht⟩ := List.mem_map.1 hm
    simp only [Edge.triple, Prod.mk.injEq] at ht
    apply p4 e he
    rw [ht.1, ht.2.1, ht.2.2]
    exact hE

theorem zip_keys_vals (m : Dict NodeId NodeId) : m = (keys m).zip (vals m) := by
  induction m with
  | nil => rfl
  | cons p m ih => simp only [keys, vals, List.map_cons, List.zip_cons_cons]; exact congrArg _ ih

theorem applyMap_zip_self (l : List NodeId) (n : NodeId) : applyMap (l.zip l) n = n := by
  unfold applyMap
  cases h : find (l.zip l) n with
  | none => rfl
  | some x =>
    have := find_some_mem h
    have : ∀ l : List NodeId, (n, x) ∈ l.zip l → n = x := by
      intro l hm
      induction l with
      | nil => cases hm
      | cons a l ih =>
        simp only [List.zip_cons_cons, List.mem_cons, Prod.mk.injEq] at hm
        rcases hm with ⟨rfl, rfl⟩ | hm
        · rfl
        · exact ih hm
    exact (this l ‹_›).symm

/-- the root and the namespace stay -/
theorem mergeGraphs_root {g o : DG} (ho : Inv o) (s : Sched) : (g.mergeGraphs o s).1.root = g.root ∧ (g.mergeGraphs o s).1.ns = g.ns := by
  obtain ⟨g2, r, h⟩ := mergeGraphs_trace (g := g) ho.inv s
  rcases h with h | h
  · rw [h]; exact r.root
  · exact ⟨(sameMeta_removeNode h).2.2.1.trans r.root.1, (sameMeta_removeNode h).2.1.trans r.root.2⟩

theorem metadataOf_eq {g : DG} {d : Dict String Atom} (h : g.nodeAttr g.root "metadata" = some (.dict d)) : metadataOf g = d := by
  unfold metadataOf; rw [h]

theorem upd_metadataOf (o : DG) (own : Dict String Atom) :
    (match o.nodeAttr o.root "metadata" with | some (.dict d) => upd own d | _ => own) = upd own (metadataOf o) := by
  unfold metadataOf
  split
  · rename_i d h; rw [h]
  · rename_i h
    split
    · rename_i d k; exact absurd k (h d)
    · rfl

theorem truthy_of_ne {t : NodeId} (h : t ≠ .int 0 ∧ t ≠ .str "") : t.truthy = true := by
  cases t with
  | int i =>
    have : i ≠ 0 := fun k => h.1 (by rw [k])
    simp [NodeId.truthy, this]
  | str s =>
    have : s ≠ "" := fun k => h.2 (by rw [k])
    simp [NodeId.truthy, this]

/-- one layer is added -/
theorem addsLayer {strs : List String} (hne : strs ≠ []) {g o : DG} (hd : Document strs g) (hl : Layer strs o) (ha : Apart g.tokens g.root g.ns o) (hroot : ¬ g.HasNode o.root)
    {s : Sched} (hs : s.Valid (o.tokens.zip g.tokens)) :
    ∃ g', g.mergeGraphs o s = (g', none) ∧ Document strs g' ∧ g'.tokens = g.tokens ∧ g'.root = g.root ∧ g'.ns = g.ns ∧
      LayerIn [] o g' ∧ KeptIn [o] g g' ∧ OnlyFrom [o] g g' ∧ metadataOf g' = upd (metadataOf g) (metadataOf o) := by
  obtain ⟨own, hown⟩ := hd.metadata
  obtain ⟨m, hm, hk, hv, -⟩ := mapping_facts hd.strings hl.strings hd.distinct hl.distinct
  have hmz : m = o.tokens.zip g.tokens := by rw [← hk, ← hv]; exact zip_keys_vals m
  have hself : (∀ t ∈ g.tokens, t.truthy = true) ∨ ∀ u k, ¬ o.HasEdge u u k := ha.loops.imp (fun h t ht => truthy_of_ne (h t ht)) id
  obtain ⟨o', e1, o2, e2, e3, -⟩ := renameTokens_fresh hl.sound hl.layered hd.strings hl.strings hd.distinct hl.distinct ha.tokens hself hm s (hmz ▸ hs)
  have f2 : ∀ n, n ∉ o.tokens → applyMap m n = n := by
    intro n hn; unfold applyMap
    rw [(find_eq_none_iff _ _).2 (by rw [hk]; exact hn)]; rfl
  have f3 : ∀ n, applyMap m n = n ∨ applyMap m n ∈ g.tokens := by
    intro n
    unfold applyMap
    cases hf : find m n with
    | none => left; rfl
    | some x => right; simp only [Option.getD_some]; rw [← hv]; exact List.mem_map_of_mem (f := Prod.snd) (find_some_mem hf)
  obtain ⟨g', κ, h1, h2, h3, h4⟩ := merge_imports_core g o hd.sound hl.sound hd.layered hl.layered hroot hl.hasRoot ha.root hd.root hl.noInEdges own hown hl.metadata s m hm o' o2 e1 e2 e3
    (f2 _ hl.root) f3
  have hgne : g.tokens ≠ [] := by
    intro k
    have := hd.strings.length_eq
    rw [k] at this
    exact hne (List.length_eq_zero_iff.1 this.symm)
  have htok : g'.tokens = g.tokens := by
    have := (keepsLists_mergeGraphs (g := g) hl.sound.inv s).1 hgne
    rw [h1] at this; exact this
  have hrt := mergeGraphs_root (g := g) hl.sound s
  rw [h1] at hrt
  have hf : ∀ n, applyMap m n = asIn g'.tokens o n := by intro n; unfold asIn; rw [htok, hmz]
  have hr' : Inv g' := by
    have := merge_inv g o hd.sound hl.sound s
    rw [h1] at this; exact this
  have hstr : g'.HasTokens strs := by
    have := c23_merge_keeps_text_partial g o hd.sound hl.sound s hroot strs hd.strings hgne ha.token
    rw [h1] at this; exact this
  have hcount : g'.edges.length = g.edges.length + o.edges.length := by
    have hio : Inv o' := by have := (ran_renameTokens hl.sound.inv m s).inv hl.sound.inv; rw [e1] at this; exact this
    have hi1 : Inv ((g.noteRoot o).updRenamed m) := ((ran_noteRoot g o).trans (ran_updRenamed _ m)).inv hd.sound.inv
    have c1 := merged_count h4 hi1.wf hio.wf hr'.inv.wf
    have wf2 : WF o2 := by
      subst e3
      exact ⟨hio.wf.nodesNodup, hio.wf.adjKeys, hio.wf.nbrsNodup, hio.wf.kdNodup, hio.wf.kdNonempty, hio.wf.target⟩
    have c2 := renamed_count e2 hl.sound.inv.wf wf2
    have c3 : o2.edges = o'.edges := by subst e3; rfl
    rw [c1, ← c2, c3]; rfl
  have h3 : g'.nodeAttr g.root "metadata" = some (.dict (upd own (metadataOf o))) := h3.trans (congrArg (fun d => some (Val.dict d)) (upd_metadataOf o own))
  refine ⟨g', h1, ⟨hr', h4.layered, hstr, by rw [htok]; exact hd.distinct, by rw [htok, hrt.1]; exact hd.root, ⟨_, by rw [hrt.1]; exact h3⟩⟩, htok, hrt.1, hrt.2,
    layerIn_of_imported h2 hf hrt.1 hrt.2, keptIn_of_merged hd.sound hl.sound hroot hm e1 e2 e3 hf h1 h4, onlyFrom_of_imported h2 hf hrt.1 hcount, ?_⟩
  rw [metadataOf_eq (by rw [hrt.1]; exact h3), metadataOf_eq hown]

theorem givenBy_mono {l l' : List DG} {g g' : DG} {n : NodeId} {x : String} (hl : ∀ o ∈ l, o ∈ l') (ht : g'.tokens = g.tokens) (h : GivenBy l g n x) : GivenBy l' g' n x := by
  obtain ⟨o, h1, n0, h2, h3⟩ := h
  exact ⟨o, hl o h1, n0, by rw [ht]; exact h2, h3⟩

theorem KeptIn.trans {l l' : List DG} {g g1 g' : DG} (h : KeptIn l g g1) (h' : KeptIn l' g1 g') (ht : g'.tokens = g1.tokens) : KeptIn (l ++ l') g g' := by
  refine ⟨fun n hn => ⟨(h'.nodes n (h.nodes n hn).1).1, fun x hx => (h'.nodes n (h.nodes n hn).1).2 x ((h.nodes n hn).2 x hx)⟩, ?_, ?_⟩
  · intro n x v hx hx' hv
    rcases h.attrs n x v hx hx' hv with k | k
    · rcases h'.attrs n x v hx hx' k with k | k
      · exact .inl k
      · exact .inr (givenBy_mono (fun o ho => List.mem_append_right _ ho) rfl k)
    · exact .inr (givenBy_mono (fun o ho => List.mem_append_left _ ho) ht k)
  · intro u v k hE
    have := h.edges u v k hE
    rw [← this]
    apply h'.edges
    unfold HasEdge at hE ⊢
    rw [this]; exact hE

theorem LayerIn.kept {l l' : List DG} {o g1 g' : DG} (h : LayerIn l o g1) (h' : KeptIn l' g1 g') (ht : g'.tokens = g1.tokens) (hr : g'.root = g1.root) (hns : g'.ns = g1.ns)
    (hgone : ¬ g'.HasNode o.root) : LayerIn (l ++ l') o g' := by
  obtain ⟨κ, k1, k2⟩ := h.edges
  have hsrc : ∀ u, startsAt o g' u = startsAt o g1 u := by intro u; unfold startsAt; rw [ht, hr]
  refine ⟨?_, ?_, hgone, κ, ?_, ?_⟩
  · intro n hn hne
    rw [ht]
    obtain ⟨p, q⟩ := h.nodes n hn hne
    exact ⟨(h'.nodes _ p).1, fun x hx => (h'.nodes _ p).2 x (q x hx)⟩
  · intro n x v hne hx hx' hv
    rw [ht]
    rcases h.attrs n x v hne hx hx' hv with k | k
    · rcases h'.attrs _ x v hx hx' k with k | k
      · exact .inl k
      · exact .inr (givenBy_mono (fun o ho => List.mem_append_right _ ho) rfl k)
    · exact .inr (givenBy_mono (fun o ho => List.mem_append_left _ ho) ht k)
  · intro u v k a ha
    obtain ⟨a', h1, h2⟩ := k1 u v k a ha
    rw [hsrc, ht, hns, h'.edges _ _ _ (by unfold HasEdge; rw [h1]; rfl)]
    exact ⟨a', h1, h2⟩
  · intro u v k u' v' k' h1 h2 he
    rw [hsrc, ht, hsrc] at he
    exact k2 u v k u' v' k' h1 h2 he

theorem OnlyFrom.trans {l l' : List DG} {g g1 g' : DG} (h : OnlyFrom l g g1) (h' : OnlyFrom l' g1 g') (ht : g'.tokens = g1.tokens) (hr : g'.root = g1.root) : OnlyFrom (l ++ l') g g' := by
  refine ⟨?_, ?_, ?_⟩
  · intro n hn
    rcases h'.nodes n hn with k | ⟨o, p, k⟩
    · rcases h.nodes n k with k | ⟨o, p, k⟩
      · exact .inl k
      · exact .inr ⟨o, List.mem_append_left _ p, by rw [ht]; exact k⟩
    · exact .inr ⟨o, List.mem_append_right _ p, k⟩
  · intro u v k hE
    rcases h'.edges u v k hE with k | ⟨o, p, k⟩
    · rcases h.edges u v _ k with k | ⟨o, p, k⟩
      · exact .inl k
      · exact .inr ⟨o, List.mem_append_left _ p, by unfold startsAt at k ⊢; rw [ht, hr]; exact k⟩
    · exact .inr ⟨o, List.mem_append_right _ p, k⟩
  · rw [h'.count, h.count]; simp; omega

theorem asIn_cases (toks : List NodeId) (o : DG) (n : NodeId) : asIn toks o n = n ∨ asIn toks o n ∈ toks := by
  unfold asIn applyMap
  cases hf : find (o.tokens.zip toks) n with
  | none => left; rfl
  | some x => right; exact (List.of_mem_zip (find_some_mem hf)).2

theorem OnlyFrom.not_root {strs : List String} {l : List DG} {g g' : DG} (h : OnlyFrom l g g') (hd : Document strs g) (ht : g'.tokens = g.tokens) {r : NodeId} (hg : ¬ g.HasNode r) (hl : ∀ o ∈ l, o.HasNode r → r = o.root) :
    ¬ g'.HasNode r := by
  intro k
  rcases h.nodes r k with k | ⟨o, p, n, h1, h2, h3⟩
  · exact hg k
  · rcases asIn_cases g'.tokens o n with k | k
    · rw [k] at h3; subst h3; exact h2 (hl o p h1)
    · rw [h3, ht] at k
      obtain ⟨i, hi⟩ := List.mem_iff_getElem?.1 k
      obtain ⟨s, -, hs⟩ := hasTokens_get hd.strings hi
      obtain ⟨a, ha⟩ := nodeAttr_hasNode hs
      exact hg (hasNode_iff'.2 ⟨a, ha⟩)

/-- any number of layers is added -/
theorem mergeAll_spec {strs : List String} (hne : strs ≠ []) (layers : List (DG × Sched)) : ∀ {g : DG}, Document strs g →
    (∀ p ∈ layers, Layer strs p.1 ∧ Apart g.tokens g.root g.ns p.1 ∧ ¬ g.HasNode p.1.root ∧ p.2.Valid (p.1.tokens.zip g.tokens)) →
    layers.Pairwise (fun a b => ¬ a.1.HasNode b.1.root ∧ ¬ b.1.HasNode a.1.root) →
    ∃ g', g.mergeAll layers = (g', none) ∧ Document strs g' ∧ g'.tokens = g.tokens ∧ g'.root = g.root ∧ g'.ns = g.ns ∧
      (∀ before p later, layers = before ++ p :: later → LayerIn (later.map Prod.fst) p.1 g') ∧ KeptIn (layers.map Prod.fst) g g' ∧ OnlyFrom (layers.map Prod.fst) g g' ∧
      metadataOf g' = (layers.map (fun p => metadataOf p.1)).foldl upd (metadataOf g) := by
  induction layers with
  | nil =>
    intro g hd _ _
    refine ⟨g, rfl, hd, rfl, rfl, rfl, ?_, ⟨fun n hn => ⟨hn, fun _ h => h⟩, fun _ _ _ _ _ h => .inl h, fun _ _ _ _ => rfl⟩, ⟨fun _ h => .inl h, fun _ _ _ h => .inl h, by simp⟩, rfl⟩
    intro before p later h
    simp at h
  | cons q layers ih =>
    intro g hd hl hp
    obtain ⟨o, s⟩ := q
    obtain ⟨l1, l2, l3, l4⟩ := hl (o, s) List.mem_cons_self
    obtain ⟨p1, p2⟩ := List.pairwise_cons.1 hp
    obtain ⟨g1, a1, a2, a3, a4, a5, a6, a7, a8, a9⟩ := addsLayer hne hd l1 l2 l3 l4
    obtain ⟨g', b1, b2, b3, b4, b5, b6, b7, b8, b9⟩ := ih a2 (fun p hm => by
      obtain ⟨m1, m2, m3, m4⟩ := hl p (List.mem_cons_of_mem _ hm)
      refine ⟨m1, by rw [a3, a4, a5]; exact m2, ?_, by rw [a3]; exact m4⟩
      refine a8.not_root hd a3 m3 ?_
      intro o' ho' hn
      rw [List.mem_singleton.1 ho'] at hn
      exact absurd hn (p1 p hm).1) p2
    have hgone : ¬ g'.HasNode o.root := by
      refine b8.not_root a2 b3 a6.rootGone ?_
      intro o' ho' hn
      obtain ⟨p, hp, rfl⟩ := List.mem_map.1 ho'
      exact absurd hn (p1 p hp).2
    refine ⟨g', ?_, b2, b3.trans a3, b4.trans a4, b5.trans a5, ?_, ?_, ?_, ?_⟩
    · unfold mergeAll; rw [a1]; exact b1
    · intro before p later h
      cases before with
      | nil =>
        simp only [List.nil_append, List.cons.injEq] at h
        obtain ⟨rfl, rfl⟩ := h
        exact a6.kept b7 b3 b4 b5 hgone
      | cons r before =>
        simp only [List.cons_append, List.cons.injEq] at h
        exact b6 before p later h.2
    · exact a7.trans b7 b3
    · exact a8.trans b8 b3 b4
    · rw [b9, a9]; rfl

/-! ### the first layer of an empty document -/

theorem renamed_nil (o : DG) : Renamed (applyMap []) o o := by
  have h : ∀ n, applyMap [] n = n := fun n => rfl
  refine ⟨fun n m _ _ he => he, fun n a ha => ⟨a, ha, fun _ _ => rfl, fun _ => Iff.rfl⟩, fun n hn => ⟨n, hn, rfl⟩, fun u v k a ha => ⟨a, ha, fun _ _ => rfl, fun _ => Iff.rfl⟩,
    fun u v k hE => ⟨u, v, hE, rfl, rfl⟩, SameMeta.refl o⟩

theorem renameTokens_nil (o : DG) {s : Sched} (hs : s.Valid []) : o.renameTokens [] s = (o, none) := by
  have h := hs.1
  unfold RelabelOrder at h
  rw [if_neg (by rintro ⟨x, hx, -⟩; cases hx)] at h
  obtain ⟨order, h1, h2⟩ := h
  have : order = [] := by simpa [keys] using h2
  subst this
  unfold renameTokens relabelInplace
  rw [h1]
  rfl

theorem tokens_mergeRenamed {g o g' : DG} (ho : Inv o) (h : g.mergeRenamed o = (g', none)) (hg : g.tokens = []) : g'.tokens = o.tokens := by
  unfold mergeRenamed at h
  have r1 := (ran_addOtherNodes (g := g) ho).sameMeta
  split at h
  · simp at h
  · rename_i g1 h1; rw [h1] at r1
    have r2 := (ran_copyTokens o (keys o.nodes) (g := g1)).sameMeta
    split at h
    · simp at h
    · rename_i g2 h2; rw [h2] at r2
      have r3 := (ran_addOtherEdges (g := g2) ho).sameMeta
      split at h
      · simp at h
      · rename_i g3 h3; rw [h3] at r3
        have r4 := sameMeta_mergeRootnodes (g := g3.copyLists o) ho
        rw [h] at r4
        rw [r4.2.2.2.1, (lists_copyLists g3 o).1, if_pos]
        rw [r3.2.2.2.1, r2.2.2.2.1, r1.2.2.2.1, hg]

/-- the first layer is added to a document without tokens: its tokens are the tokens of the document -/
theorem firstLayer {strs : List String} {g o : DG} (hr : Inv g) (hlg : NodesLayered False g) (hg0 : g.tokens = []) (hmeta : ∃ d, g.nodeAttr g.root "metadata" = some (.dict d))
    (hl : Layer strs o) (hgr : ¬ o.HasNode g.root) (hno : ∀ n, o.nodeAttr n (g.ns ++ (":" ++ "token")) = none) (hroot : ¬ g.HasNode o.root) (hnew : ∀ t ∈ o.tokens, ¬ g.HasNode t) {s : Sched} (hs : s.Valid []) :
    ∃ g', g.mergeGraphs o s = (g', none) ∧ Document strs g' ∧ g'.tokens = o.tokens ∧ g'.root = g.root ∧ g'.ns = g.ns ∧
      LayerIn [] o g' ∧ KeptIn [o] g g' ∧ OnlyFrom [o] g g' ∧ metadataOf g' = upd (metadataOf g) (metadataOf o) := by
  obtain ⟨own, hown⟩ := hmeta
  have hm : createTokenMapping o g = .ok [] := by unfold createTokenMapping; rw [hg0]; rfl
  have e1 := renameTokens_nil o hs
  obtain ⟨g', κ, h1, h2, h3, h4⟩ := merge_imports_core g o hr hl.sound hlg hl.layered hroot hl.hasRoot hgr (by rw [hg0]; simp) hl.noInEdges own hown hl.metadata s [] hm o o e1 (renamed_nil o) rfl
    rfl (fun _ => .inl rfl)
  have hg2 : ((g.noteRoot o).updRenamed []).mergeRenamed o = (g', none) := by
    have := h1
    unfold mergeGraphs at this
    simp only [createTokenMapping_noteRoot, hm, e1] at this
    exact this
  have htok : g'.tokens = o.tokens := tokens_mergeRenamed hl.sound.inv hg2 hg0
  have hrt := mergeGraphs_root (g := g) hl.sound s
  rw [h1] at hrt
  have hf : ∀ n, applyMap [] n = asIn g'.tokens o n := by intro n; unfold asIn; rw [htok, applyMap_zip_self]; rfl
  have hr' : Inv g' := by
    have := merge_inv g o hr hl.sound s
    rw [h1] at this; exact this
  have hstr : g'.HasTokens strs := by
    unfold HasTokens
    rw [htok]
    have : ∀ {ts ss}, List.Forall₂ o.TokenStr ts ss → (∀ t ∈ ts, t ∈ o.tokens) → List.Forall₂ g'.TokenStr ts ss := by
      intro ts ss h
      induction h with
      | nil => intro _; exact .nil
      | @cons t x ts ss k1 _ ih =>
        intro hm
        refine .cons ?_ (ih (fun t ht => hm t (List.mem_cons_of_mem _ ht)))
        have ht := hm t List.mem_cons_self
        obtain ⟨a, ha⟩ := nodeAttr_hasNode k1
        have := h4.tokens t _ (hasNode_iff'.2 ⟨a, ha⟩) (fun k => hl.root (k ▸ ht)) (hnew t ht) (hno t) k1
        unfold TokenStr
        rw [hrt.2]
        exact this
    exact this hl.strings (fun _ h => h)
  have hcount : g'.edges.length = g.edges.length + o.edges.length := by
    have hi1 : Inv ((g.noteRoot o).updRenamed []) := ((ran_noteRoot g o).trans (ran_updRenamed _ [])).inv hr.inv
    have := merged_count h4 hi1.wf hl.sound.inv.wf hr'.inv.wf
    rw [this]; rfl
  have h3 : g'.nodeAttr g.root "metadata" = some (.dict (upd own (metadataOf o))) := h3.trans (congrArg (fun d => some (Val.dict d)) (upd_metadataOf o own))
  refine ⟨g', h1, ⟨hr', h4.layered, hstr, by rw [htok]; exact hl.distinct, ?_, ⟨_, by rw [hrt.1]; exact h3⟩⟩, htok, hrt.1, hrt.2,
    layerIn_of_imported h2 hf hrt.1 hrt.2, keptIn_of_merged hr hl.sound hroot hm e1 (renamed_nil o) rfl hf h1 h4, onlyFrom_of_imported h2 hf hrt.1 hcount, ?_⟩
  · rw [htok, hrt.1]
    intro k
    obtain ⟨i, hi⟩ := List.mem_iff_getElem?.1 k
    obtain ⟨s, -, hs⟩ := hasTokens_get hl.strings hi
    obtain ⟨a, ha⟩ := nodeAttr_hasNode hs
    exact hgr (hasNode_iff'.2 ⟨a, ha⟩)
  · rw [metadataOf_eq (by rw [hrt.1]; exact h3), metadataOf_eq hown]

end DG
end Dg
