import Verif.Lemmas.Script
import Mathlib.Data.List.Forall2

/-! Two graphs that differ in the layers only: each node and edge of the second one may have additional layers. -/

namespace Dg
open Dict

/-- dicts with the same keys in the same order and related values -/
def DRel {K V W : Type} (R : K → V → W → Prop) (d : Dict K V) (d' : Dict K W) : Prop := List.Forall₂ (fun p q => p.1 = q.1 ∧ R p.1 p.2 q.2) d d'

namespace DRel
variable {K V W : Type} {R : K → V → W → Prop} {d : Dict K V} {d' : Dict K W}

variable [DecidableEq K]

theorem find (h : DRel R d d') (k : K) : (Dict.find d k = none ∧ Dict.find d' k = none) ∨ ∃ v w, Dict.find d k = some v ∧ Dict.find d' k = some w ∧ R k v w := by
  induction h with
  | nil => exact .inl ⟨rfl, rfl⟩
  | @cons p q d d' hp _ ih =>
    obtain ⟨pk, pv⟩ := p
    obtain ⟨qk, qv⟩ := q
    obtain ⟨h1, h2⟩ := hp
    simp only at h1 h2
    subst h1
    simp only [find_cons]
    by_cases hk : pk = k
    · subst hk
      exact .inr ⟨pv, qv, by simp, by simp, h2⟩
    · simpa [hk] using ih

theorem find_some (h : DRel R d d') {k : K} {v : V} (e : Dict.find d k = some v) : ∃ w, Dict.find d' k = some w ∧ R k v w := by
  rcases h.find k with ⟨e', _⟩ | ⟨v', w, e1, e2, r⟩
  · rw [e] at e'; cases e'
  · rw [e] at e1; cases e1; exact ⟨w, e2, r⟩

theorem find_some' (h : DRel R d d') {k : K} {w : W} (e : Dict.find d' k = some w) : ∃ v, Dict.find d k = some v ∧ R k v w := by
  rcases h.find k with ⟨_, e'⟩ | ⟨v, w', e1, e2, r⟩
  · rw [e] at e'; cases e'
  · rw [e] at e2; cases e2; exact ⟨v, e1, r⟩

theorem find_none (h : DRel R d d') {k : K} : Dict.find d k = none ↔ Dict.find d' k = none := by
  rcases h.find k with ⟨e, e'⟩ | ⟨v, w, e, e', _⟩ <;> simp [e, e']

theorem keys (h : DRel R d d') : Dict.keys d = Dict.keys d' := by
  induction h with
  | nil => rfl
  | cons hp _ ih => simp only [Dict.keys, List.map_cons] at ih ⊢; rw [hp.1, ih]

theorem put (h : DRel R d d') {k : K} {v : V} {w : W} (r : R k v w) : DRel R (Dict.put d k v) (Dict.put d' k w) := by
  induction h with
  | nil => exact .cons ⟨rfl, r⟩ .nil
  | @cons p q d d' hp hd ih =>
    obtain ⟨pk, pv⟩ := p
    obtain ⟨qk, qv⟩ := q
    obtain ⟨h1, h2⟩ := hp
    simp only at h1 h2
    subst h1
    simp only [Dict.put]
    split
    · rename_i e
      refine .cons ⟨rfl, ?_⟩ hd
      show R pk v w
      rw [e]; exact r
    · exact .cons ⟨rfl, h2⟩ ih

theorem putRight (h : DRel R d d') {k : K} {v : V} {w : W} (e : Dict.find d k = some v) (r : R k v w) : DRel R d (Dict.put d' k w) := by
  have := h.put r
  rwa [put_find_self e] at this

theorem putLeft (h : DRel R d d') {k : K} {v : V} {w : W} (e : Dict.find d' k = some w) (r : R k v w) : DRel R (Dict.put d k v) d' := by
  have := h.put r
  rwa [put_find_self e] at this

omit [DecidableEq K] in
theorem mono {S : K → V → W → Prop} (h : DRel R d d') (hs : ∀ k v w, R k v w → S k v w) : DRel S d d' := by
  induction h with
  | nil => exact .nil
  | cons hp _ ih => exact .cons ⟨hp.1, hs _ _ _ hp.2⟩ ih

omit [DecidableEq K] in
theorem refl {R : K → V → V → Prop} {d : Dict K V} (h : ∀ p ∈ d, R p.1 p.2 p.2) : DRel R d d := by
  induction d with
  | nil => exact .nil
  | cons p d ih => exact .cons ⟨rfl, h p (by simp)⟩ (ih (fun q hq => h q (by simp [hq])))

theorem length (h : DRel R d d') : List.length d = List.length d' := List.Forall₂.length_eq h

end DRel

namespace DG

/-- the same attributes, but the second dict may have additional layers, which satisfy `X` -/
def AttrsUpto (X : Atom → Prop) (a a' : Attrs) : Prop :=
  (∀ k, k ≠ "layers" → find a k = find a' k) ∧ ∃ xs ys, find a "layers" = some (.set xs) ∧ find a' "layers" = some (.set ys) ∧ (∀ l ∈ xs, l ∈ ys) ∧ ∀ l ∈ ys, l ∈ xs ∨ X l

/-- the same graph, but the second one may have additional layers: `X` for nodes, `Y` for edges with the given source -/
structure Upto (X Y : NodeId → Atom → Prop) (g g' : DG) : Prop where
  name : g'.name = g.name
  ns : g'.ns = g.ns
  root : g'.root = g.root
  tokens : g'.tokens = g.tokens
  sentences : g'.sentences = g.sentences
  mergedRoots : g'.mergedRoots = g.mergedRoots
  renamed : g'.renamed = g.renamed
  nodes : DRel (fun n => AttrsUpto (X n)) g.nodes g'.nodes
  adj : DRel (fun u => DRel (fun _ => DRel (fun _ => AttrsUpto (Y u)))) g.adj g'.adj

variable {X Y : NodeId → Atom → Prop} {g g' : DG}

theorem Upto.hasNode (h : Upto X Y g g') (n : NodeId) : g'.HasNode n ↔ g.HasNode n := by unfold HasNode; rw [h.nodes.keys]

theorem Upto.has (h : Upto X Y g g') (n : NodeId) : Dict.has g'.nodes n = Dict.has g.nodes n := by
  rw [Bool.eq_iff_iff, has_iff, has_iff]; exact h.hasNode n

theorem Upto.nodeAttr (h : Upto X Y g g') (n : NodeId) {k : String} (hk : k ≠ "layers") : g'.nodeAttr n k = g.nodeAttr n k := by
  show (find g'.nodes n).bind _ = (find g.nodes n).bind _
  rcases h.nodes.find n with ⟨e, e'⟩ | ⟨v, w, e, e', r⟩
  · rw [e, e']
  · rw [e, e']; exact (r.1 k hk).symm

theorem AttrsUpto.layer {X : Atom → Prop} {a a' : Attrs} (h : AttrsUpto X a a') {l : Atom} (hl : AttrsLayer a l) : AttrsLayer a' l := by
  obtain ⟨_, xs, ys, e1, e2, h1, _⟩ := h
  obtain ⟨zs, e, hz⟩ := hl
  rw [e1] at e; cases e
  exact ⟨ys, e2, h1 l hz⟩

theorem AttrsUpto.layer' {X : Atom → Prop} {a a' : Attrs} (h : AttrsUpto X a a') {l : Atom} (hl : AttrsLayer a' l) : AttrsLayer a l ∨ X l := by
  obtain ⟨_, xs, ys, e1, e2, _, h2⟩ := h
  obtain ⟨zs, e, hz⟩ := hl
  rw [e2] at e; cases e
  exact (h2 l hz).imp (fun hx => ⟨xs, e1, hx⟩) id

theorem Upto.layer (h : Upto X Y g g') {n : NodeId} {l : Atom} (hl : g.NodeLayer n l) : g'.NodeLayer n l := by
  obtain ⟨a, ha, hl⟩ := hl
  obtain ⟨a', ha', r⟩ := h.nodes.find_some ha
  exact ⟨a', ha', r.layer hl⟩

theorem Upto.layer' (h : Upto X Y g g') {n : NodeId} {l : Atom} (hl : g'.NodeLayer n l) : g.NodeLayer n l ∨ X n l := by
  obtain ⟨a', ha', hl⟩ := hl
  obtain ⟨a, ha, r⟩ := h.nodes.find_some' ha'
  exact (r.layer' hl).imp (fun h => ⟨a, ha, h⟩) id

theorem Upto.kd (h : Upto X Y g g') (u v : NodeId) : (g.kd? u v = none ∧ g'.kd? u v = none) ∨ ∃ k k', g.kd? u v = some k ∧ g'.kd? u v = some k' ∧ DRel (fun _ => AttrsUpto (Y u)) k k' := by
  unfold kd?
  rcases h.adj.find u with ⟨e, e'⟩ | ⟨d, d', e, e', r⟩
  · rw [e, e']; exact .inl ⟨rfl, rfl⟩
  · rw [e, e']
    exact r.find v

theorem Upto.edge (h : Upto X Y g g') {u v : NodeId} {a : Attrs} (he : g.EdgeWith u v a) : ∃ a', g'.EdgeWith u v a' ∧ AttrsUpto (Y u) a a' := by
  obtain ⟨k, e⟩ := he
  unfold edgeAttrs at e
  rcases h.kd u v with ⟨e1, _⟩ | ⟨d, d', e1, e2, r⟩
  · rw [e1] at e; cases e
  · rw [e1] at e
    obtain ⟨a', ha, ra⟩ := r.find_some (v := a) (k := k) e
    exact ⟨a', ⟨k, by unfold edgeAttrs; rw [e2]; exact ha⟩, ra⟩

theorem Upto.edge' (h : Upto X Y g g') {u v : NodeId} {a' : Attrs} (he : g'.EdgeWith u v a') : ∃ a, g.EdgeWith u v a ∧ AttrsUpto (Y u) a a' := by
  obtain ⟨k, e⟩ := he
  unfold edgeAttrs at e
  rcases h.kd u v with ⟨_, e2⟩ | ⟨d, d', e1, e2, r⟩
  · rw [e2] at e; cases e
  · rw [e2] at e
    obtain ⟨a, ha, ra⟩ := r.find_some' (w := a') (k := k) e
    exact ⟨a, ⟨k, by unfold edgeAttrs; rw [e1]; exact ha⟩, ra⟩

theorem Upto.count (h : Upto X Y g g') (u v : NodeId) : g'.edgeCount u v = g.edgeCount u v := by
  unfold edgeCount
  rcases h.kd u v with ⟨e1, e2⟩ | ⟨d, d', e1, e2, r⟩ <;> rw [e1, e2]
  exact r.length.symm

/-- attributes given in a call -/
theorem attrsUpto_args {Z : Atom → Prop} (at' : Attrs) {ls ls' : List Atom} (h1 : ∀ l ∈ ls, l ∈ ls') (h2 : ∀ l ∈ ls', l ∈ ls ∨ Z l) : AttrsUpto Z (put at' "layers" (.set ls)) (put at' "layers" (.set ls')) :=
  ⟨fun k hk => by rw [find_put_ne _ _ (Ne.symm hk), find_put_ne _ _ (Ne.symm hk)], ls, ls', find_put_self .., find_put_self .., h1, h2⟩

theorem Upto.addNode (h : Upto X Y g g') {n : NodeId} {ls ls' : List String} {at' : Attrs} (nd : (keys at').Nodup) (hne : ls ≠ []) (h1 : ∀ l ∈ ls, l ∈ ls') (h2 : ∀ l ∈ ls', l ∈ ls ∨ X n (.str l)) {r : DG}
    (e : (Instr.node n ls at').exec g = .ok r) : ∃ r', (Instr.node n ls' at').exec g' = .ok r' ∧ Upto X Y r r' := by
  have hne' : ls' ≠ [] := by
    obtain ⟨x, hx⟩ := List.exists_mem_of_ne_nil _ hne
    exact List.ne_nil_of_mem (h1 x hx)
  have h1' : ∀ l ∈ ls.map Atom.str, l ∈ ls'.map Atom.str := by
    intro l hl
    obtain ⟨s, hs, rfl⟩ := List.mem_map.1 hl
    exact List.mem_map.2 ⟨s, h1 s hs, rfl⟩
  have h2' : ∀ l ∈ ls'.map Atom.str, l ∈ ls.map Atom.str ∨ X n l := by
    intro l hl
    obtain ⟨s, hs, rfl⟩ := List.mem_map.1 hl
    exact (h2 s hs).imp (fun h => List.mem_map.2 ⟨s, h, rfl⟩) id
  simp only [Instr.exec] at e ⊢
  unfold DG.addNode at e ⊢
  rw [checkLayers_strs g hne] at e
  rw [checkLayers_strs g' hne']
  simp only [bind, Except.bind, mergeAttrArg] at e ⊢
  rcases h.nodes.find n with ⟨e1, e2⟩ | ⟨a, a', e1, e2, ra⟩
  · rw [e1] at e
    rw [e2]
    simp only [Except.ok.injEq] at e
    subst e
    refine ⟨_, rfl, ?_⟩
    exact ⟨h.name, h.ns, h.root, h.tokens, h.sentences, h.mergedRoots, h.renamed, h.nodes.put (attrsUpto_args at' h1' h2'), h.adj.put .nil⟩
  · rw [e1] at e
    rw [e2]
    obtain ⟨ra1, xs, ys, f1, f2, s1, s2⟩ := ra
    simp only [layerSet, f1, Except.ok.injEq] at e
    simp only [layerSet, f2, Except.ok.injEq]
    subst e
    refine ⟨_, rfl, ?_⟩
    refine ⟨h.name, h.ns, h.root, h.tokens, h.sentences, h.mergedRoots, h.renamed, h.nodes.put ?_, h.adj⟩
    refine ⟨?_, _, _, find_put_self .., find_put_self .., ?_, ?_⟩
    · intro k hk
      rw [find_put_ne _ _ (Ne.symm hk), find_put_ne _ _ (Ne.symm hk), find_upd _ (nodup_del (nodup_put nd _ _) _), find_upd _ (nodup_del (nodup_put nd _ _) _)]
      simp only [find_del, find_put, ra1 k hk, if_neg (Ne.symm hk)]
    · intro l hl
      rw [mem_setUnion] at hl ⊢
      exact hl.imp (s1 l) (h1' l)
    · intro l hl
      rw [mem_setUnion] at hl ⊢
      rcases hl with hl | hl
      · exact (s2 l hl).imp .inl id
      · exact (h2' l hl).imp .inr id

/-- a call that has no effect on the second graph -/
theorem Upto.addLeft (h : Upto X Y g g') {n : NodeId} {ls : List String} (hne : ls ≠ []) (hn : g.HasNode n) (h1 : ∀ l ∈ ls, g'.NodeLayer n (.str l)) {r : DG}
    (e : (Instr.node n ls []).exec g = .ok r) : Upto X Y r g' := by
  simp only [Instr.exec] at e
  unfold DG.addNode at e
  rw [checkLayers_strs g hne] at e
  simp only [bind, Except.bind, mergeAttrArg] at e
  obtain ⟨a, ha⟩ := (hasNode_some _ _).1 hn
  have ha : find g.nodes n = some a := ha
  obtain ⟨a', ha', ra1, xs, ys, f1, f2, s1, s2⟩ := h.nodes.find_some ha
  rw [ha] at e
  simp only [layerSet, f1, Except.ok.injEq] at e
  subst e
  refine ⟨h.name, h.ns, h.root, h.tokens, h.sentences, h.mergedRoots, h.renamed, h.nodes.putLeft ha' ?_, h.adj⟩
  refine ⟨?_, _, _, find_put_self .., f2, ?_, ?_⟩
  · intro k hk
    rw [find_put_ne _ _ (Ne.symm hk)]
    show find (upd a (del (put [] "layers" _) "layers")) k = _
    rw [show del (put ([] : Attrs) "layers" (Val.set (ls.map Atom.str))) "layers" = [] from rfl, upd_nil]
    exact ra1 k hk
  · intro l hl
    rw [mem_setUnion] at hl
    rcases hl with hl | hl
    · exact s1 l hl
    · obtain ⟨s, hs, rfl⟩ := List.mem_map.1 hl
      obtain ⟨b, hb, zs, hz, hl⟩ := h1 s hs
      have hb : find g'.nodes n = some b := hb
      rw [ha'] at hb; cases hb
      rw [f2] at hz; cases hz
      exact hl
  · intro l hl
    rw [mem_setUnion]
    exact (s2 l hl).imp .inl id

theorem fresh_upto {Z : Atom → Prop} {k k' : KeyDict} (h : DRel (fun _ => AttrsUpto Z) k k') : freshKey k' = freshKey k := by
  have hh : ∀ x, Dict.has k' x = Dict.has k x := by
    intro x
    rw [Bool.eq_iff_iff, has_iff, has_iff, h.keys]
  have : ∀ f n, freshFrom k' f n = freshFrom k f n := by
    intro f
    induction f with
    | zero => intro n; rfl
    | succ f ih => intro n; simp only [freshFrom, hh, ih]
  unfold freshKey
  rw [this, h.length]

/-- `g[u][v][k] = a` -/
theorem Upto.putKeyDict (h : Upto X Y g g') {u v : NodeId} {k k' : KeyDict} (r : DRel (fun _ => AttrsUpto (Y u)) k k') : Upto X Y (g.putKeyDict u v k) (g'.putKeyDict u v k') := by
  unfold DG.putKeyDict
  rcases h.adj.find u with ⟨e, e'⟩ | ⟨d, d', e, e', rd⟩
  · rw [e, e']; exact h
  · rw [e, e']
    exact ⟨h.name, h.ns, h.root, h.tokens, h.sentences, h.mergedRoots, h.renamed, h.nodes, h.adj.put (rd.put r)⟩

theorem Upto.ensureNode (h : Upto X Y g g') (n : NodeId) : Upto X Y (g.ensureNode n) (g'.ensureNode n) := by
  unfold DG.ensureNode
  rw [h.has n]
  split
  · exact h
  · refine ⟨h.name, h.ns, h.root, h.tokens, h.sentences, h.mergedRoots, h.renamed, h.nodes.put ?_, h.adj.put .nil⟩
    unfold nsLayers
    rw [h.ns]
    exact attrsUpto_args [] (fun l h => h) (fun l h => .inl h)

theorem Upto.addEdge (h : Upto X Y g g') {u v : NodeId} {ls ls' : List String} {at' : Attrs} (nd : (keys at').Nodup) (hne : ls ≠ []) (h1 : ∀ l ∈ ls, l ∈ ls') (h2 : ∀ l ∈ ls', l ∈ ls ∨ Y u (.str l)) {r : DG}
    (e : (Instr.edge u v ls at').exec g = .ok r) : ∃ r', (Instr.edge u v ls' at').exec g' = .ok r' ∧ Upto X Y r r' := by
  have hne' : ls' ≠ [] := by
    obtain ⟨x, hx⟩ := List.exists_mem_of_ne_nil _ hne
    exact List.ne_nil_of_mem (h1 x hx)
  have h1' : ∀ l ∈ ls.map Atom.str, l ∈ ls'.map Atom.str := by
    intro l hl
    obtain ⟨s, hs, rfl⟩ := List.mem_map.1 hl
    exact List.mem_map.2 ⟨s, h1 s hs, rfl⟩
  have h2' : ∀ l ∈ ls'.map Atom.str, l ∈ ls.map Atom.str ∨ Y u l := by
    intro l hl
    obtain ⟨s, hs, rfl⟩ := List.mem_map.1 hl
    exact (h2 s hs).imp (fun h => List.mem_map.2 ⟨s, h, rfl⟩) id
  simp only [Instr.exec] at e ⊢
  unfold DG.addEdge at e ⊢
  rw [checkLayers_strs g hne] at e
  rw [checkLayers_strs g' hne']
  simp only [bind, Except.bind, mergeAttrArg] at e ⊢
  have hg := (h.ensureNode u).ensureNode v
  have nd' : ∀ ls : List Atom, (keys (put at' "layers" (Val.set ls))).Nodup := fun ls => nodup_put nd _ _
  rcases hg.kd u v with ⟨e1, e2⟩ | ⟨k, k', e1, e2, r⟩
  · unfold kd? at e1 e2
    rw [e1] at e
    rw [e2]
    simp only [Except.ok.injEq] at e
    subst e
    refine ⟨_, rfl, hg.putKeyDict (.cons ⟨rfl, ?_⟩ .nil)⟩
    rw [upd_nil_of_nodup (nd' _), upd_nil_of_nodup (nd' _)]
    exact attrsUpto_args at' h1' h2'
  · unfold kd? at e1 e2
    rw [e1] at e
    rw [e2]
    simp only [Option.getD_none, fresh_upto r] at e ⊢
    have main : ∀ (xs ys : List Atom) (b b' : Attrs), (∀ k, k ≠ "layers" → find b k = find b' k) → (∀ l ∈ xs, l ∈ ys) → (∀ l ∈ ys, l ∈ xs ∨ Y u l) →
        AttrsUpto (Y u) (put (upd b (put at' "layers" (.set (ls.map Atom.str)))) "layers" (.set (setUnion xs (ls.map Atom.str)))) (put (upd b' (put at' "layers" (.set (ls'.map Atom.str)))) "layers" (.set (setUnion ys (ls'.map Atom.str)))) := by
      intro xs ys b b' hb s1 s2
      refine ⟨?_, _, _, find_put_self .., find_put_self .., ?_, ?_⟩
      · intro k hk
        rw [find_put_ne _ _ (Ne.symm hk), find_put_ne _ _ (Ne.symm hk), find_upd _ (nd' _), find_upd _ (nd' _), find_put_ne _ _ (Ne.symm hk), find_put_ne _ _ (Ne.symm hk), hb k hk]
      · intro l hl
        rw [mem_setUnion] at hl ⊢
        exact hl.imp (s1 l) (h1' l)
      · intro l hl
        rw [mem_setUnion] at hl ⊢
        rcases hl with hl | hl
        · exact (s2 l hl).imp .inl id
        · exact (h2' l hl).imp .inr id
    rcases r.find (freshKey k) with ⟨f1, f2⟩ | ⟨b, b', f1, f2, rb1, xs, ys, z1, z2, s1, s2⟩
    · simp only [f1, Option.getD_none, layersOrEmpty, find_nil, Except.ok.injEq] at e
      simp only [f2, Option.getD_none, layersOrEmpty, find_nil, Except.ok.injEq]
      subst e
      exact ⟨_, rfl, hg.putKeyDict (r.put (main [] [] [] [] (fun _ _ => rfl) (by simp) (by simp)))⟩
    · simp only [f1, Option.getD_some, layersOrEmpty, z1, Except.ok.injEq] at e
      simp only [f2, Option.getD_some, layersOrEmpty, z2, Except.ok.injEq]
      subst e
      exact ⟨_, rfl, hg.putKeyDict (r.put (main xs ys b b' rb1 s1 s2))⟩

theorem Upto.setAttr (h : Upto X Y g g') {n : NodeId} {k : String} {v : Val} (hk : k ≠ "layers") {r : DG} (e : (Instr.attr n k v).exec g = .ok r) : ∃ r', (Instr.attr n k v).exec g' = .ok r' ∧ Upto X Y r r' := by
  simp only [Instr.exec] at e ⊢
  unfold DG.setAttr at e ⊢
  rcases h.nodes.find n with ⟨e1, e2⟩ | ⟨a, a', e1, e2, ra, xs, ys, f1, f2, s1, s2⟩
  · rw [e1] at e; cases e
  · rw [e1] at e
    rw [e2]
    simp only [Except.ok.injEq] at e
    subst e
    refine ⟨_, rfl, h.name, h.ns, h.root, h.tokens, h.sentences, h.mergedRoots, h.renamed, h.nodes.put ⟨?_, xs, ys, ?_, ?_, s1, s2⟩, h.adj⟩
    · intro q hq
      rw [find_put, find_put]
      split
      · rfl
      · exact ra q hq
    · rw [find_put_ne _ _ hk]; exact f1
    · rw [find_put_ne _ _ hk]; exact f2

theorem Upto.withTokens (h : Upto X Y g g') (ts : List NodeId) : Upto X Y { g with tokens := ts } { g' with tokens := ts } :=
  ⟨h.name, h.ns, h.root, rfl, h.sentences, h.mergedRoots, h.renamed, h.nodes, h.adj⟩

theorem Upto.withSentences (h : Upto X Y g g') (ts : List NodeId) : Upto X Y { g with sentences := ts } { g' with sentences := ts } :=
  ⟨h.name, h.ns, h.root, h.tokens, rfl, h.mergedRoots, h.renamed, h.nodes, h.adj⟩

theorem Upto.execs {s : List Instr} (hok : ∀ i ∈ s, i.Ok (fun _ => True)) : ∀ {g g' r : DG}, Upto X Y g g' → DG.execs g s = .ok r → ∃ r', DG.execs g' s = .ok r' ∧ Upto X Y r r' := by
  induction s with
  | nil => intro g g' r h e; cases e; exact ⟨g', rfl, h⟩
  | cons i s ih =>
    intro g g' r h e
    rw [execs_cons] at e
    cases he : i.exec g with
    | error x => rw [he] at e; cases e
    | ok g1 =>
      rw [he] at e
      have hi := hok i (by simp)
      have : ∃ g1', i.exec g' = .ok g1' ∧ Upto X Y g1 g1' := by
        cases i with
        | node n ls at' => exact h.addNode hi.2 hi.1 (fun l h => h) (fun l h => .inl h) he
        | edge u v ls at' => exact h.addEdge hi.2 hi.1 (fun l h => h) (fun l h => .inl h) he
        | attr n k v => exact h.setAttr hi.2 he
        | token n =>
          simp only [Instr.exec, Except.ok.injEq] at he ⊢
          subst he
          refine ⟨_, rfl, ?_⟩
          rw [h.tokens]
          exact h.withTokens _
        | sentence n =>
          simp only [Instr.exec, Except.ok.injEq] at he ⊢
          subst he
          refine ⟨_, rfl, ?_⟩
          rw [h.sentences]
          exact h.withSentences _
      obtain ⟨g1', e1, h1⟩ := this
      obtain ⟨r', e2, h2⟩ := ih (fun j hj => hok j (by simp [hj])) h1 e
      exact ⟨r', by rw [execs_cons, e1]; exact e2, h2⟩

theorem attrsUpto_refl {Z : Atom → Prop} {a : Attrs} (h : ∃ xs, find a "layers" = some (.set xs)) : AttrsUpto Z a a := by
  obtain ⟨xs, e⟩ := h
  exact ⟨fun _ _ => rfl, xs, xs, e, e, fun _ h => h, fun _ h => .inl h⟩

theorem Upto.refl {g : DG} (hi : Inv g) (hl : NodesLayered False g) : Upto X Y g g := by
  refine ⟨rfl, rfl, rfl, rfl, rfl, rfl, rfl, DRel.refl ?_, DRel.refl ?_⟩
  · intro p hp
    obtain ⟨xs, e, _⟩ := hl p.1 p.2 (mem_find hi.wf.nodesNodup hp)
    exact attrsUpto_refl ⟨xs, e⟩
  · intro p hp
    have hp' : find g.adj p.1 = some p.2 := mem_find (by rw [hi.wf.adjKeys]; exact hi.wf.nodesNodup) hp
    refine DRel.refl ?_
    intro q hq
    have hq' : find p.2 q.1 = some q.2 := mem_find (hi.wf.nbrsNodup _ _ hp') hq
    have hk : g.kd? p.1 q.1 = some q.2 := by unfold kd?; rw [hp']; exact hq'
    refine DRel.refl ?_
    intro r hr
    have hr' : find q.2 r.1 = some r.2 := mem_find (hi.wf.kdNodup _ _ _ hk) hr
    obtain ⟨xs, e, _⟩ := hi.edges p.1 q.1 r.1 r.2 (by unfold edgeAttrs; rw [hk]; exact hr')
    exact attrsUpto_refl ⟨xs, e⟩

theorem Upto.wf (h : Upto X Y g g') (w : WF g) : WF g' := by
  refine ⟨by rw [← h.nodes.keys]; exact w.nodesNodup, by rw [← h.nodes.keys, ← h.adj.keys]; exact w.adjKeys, ?_, ?_, ?_, ?_⟩
  · intro u nb e
    obtain ⟨d, e', r⟩ := h.adj.find_some' e
    rw [← DRel.keys r]; exact w.nbrsNodup u d e'
  all_goals
    intro u v kd e
    obtain ⟨k, e1, r⟩ : ∃ k, g.kd? u v = some k ∧ DRel (fun _ => AttrsUpto (Y u)) k kd := by
      rcases h.kd u v with ⟨_, e2⟩ | ⟨k, k', e1, e2, r⟩
      · rw [e2] at e; cases e
      · rw [e2] at e; cases e; exact ⟨k, e1, r⟩
  · rw [← r.keys]; exact w.kdNodup u v k e1
  · intro e
    refine w.kdNonempty u v k e1 ?_
    rw [← List.length_eq_zero_iff, r.length, e]; rfl
  · rw [← h.nodes.keys]; exact w.target u v k e1

end DG
end Dg
