import Verif.Model.Heap
import Verif.Lemmas.Dict
import Mathlib.Data.List.Nodup

/-! C07 on the level of Python objects: sharing of layer sets. -/

namespace Dg
open Dict
namespace Heap

/-- nodes and edges -/
inductive Elt
  | node (n : NodeId)
  | edge (u v : NodeId) (k : Key)
  deriving DecidableEq

/-- the set object an element holds under `'layers'` -/
def holds (h : Heap) : Elt → Option Nat
  | .node n => (find h.nodes n).bind (fun d => h.dicts.getD d none)
  | .edge u v k => find h.edges (u, v, k)

/-- the layers of an element as the client sees them -/
def layersOf (h : Heap) : Elt → Option (List Atom)
  | .node n => h.nodeLayers n
  | .edge u v k => h.edgeLayers u v k

/-- element is present -/
def Has (h : Heap) : Elt → Prop
  | .node n => n ∈ keys h.nodes
  | .edge u v k => (u, v, k) ∈ keys h.edges

instance (h : Heap) (e : Elt) : Decidable (h.Has e) := by
  cases e
  · exact inferInstanceAs (Decidable (_ ∈ _))
  · exact inferInstanceAs (Decidable (_ ∈ _))

/-- No two elements share a layer set object, no two nodes share an attribute dict object; all references are valid. -/
structure Sep (h : Heap) : Prop where
  edgesNodup : (keys h.edges).Nodup
  nodeDict : ∀ n d, find h.nodes n = some d → d < h.dicts.length
  nodeHolds : ∀ n, n ∈ keys h.nodes → ∃ s, h.holds (.node n) = some s
  valid : ∀ e s, h.holds e = some s → s < h.sets.length
  dictInj : ∀ n n' d, find h.nodes n = some d → find h.nodes n' = some d → n = n'
  inj : ∀ e e' s, h.holds e = some s → h.holds e' = some s → e = e'

/-- The client does not pass an object that the graph already holds. -/
def Op.Fresh (h : Heap) : Op → Prop
  | .addNode _ s d => (∀ x, s = some x → x < h.sets.length ∧ ∀ e, h.holds e ≠ some x) ∧
      (∀ x, d = some x → x < h.dicts.length ∧ ∀ n, find h.nodes n ≠ some x)
  | .addEdge _ _ _ s => ∀ x, s = some x → x < h.sets.length ∧ ∀ e, h.holds e ≠ some x
  | _ => True

theorem layersOf_eq (h : Heap) (e : Elt) : h.layersOf e = (h.holds e).map (fun s => h.sets.getD s []) := by
  cases e with
  | node n =>
    simp only [layersOf, nodeLayers, dictLayers, holds]
    cases find h.nodes n <;> simp
  | edge u v k => simp [layersOf, edgeLayers, holds]

/-- same references, existing set objects unchanged -/
structure Ext (h h' : Heap) : Prop where
  nodes : h'.nodes = h.nodes
  edges : h'.edges = h.edges
  ns : h'.ns = h.ns
  holds : ∀ e, h'.holds e = h.holds e
  sets : ∃ t, h'.sets = h.sets ++ t
  dicts : h.dicts.length ≤ h'.dicts.length

theorem Ext.getD {h h' : Heap} (x : Ext h h') {s : Nat} (hs : s < h.sets.length) : h'.sets.getD s [] = h.sets.getD s [] := by
  obtain ⟨t, ht⟩ := x.sets
  rw [ht]; simp [List.getD_eq_getElem?_getD, List.getElem?_append_left hs]

theorem Ext.len {h h' : Heap} (x : Ext h h') : h.sets.length ≤ h'.sets.length := by
  obtain ⟨t, ht⟩ := x.sets; rw [ht]; simp

theorem Ext.sep {h h' : Heap} (x : Ext h h') (s : Sep h) : Sep h' := by
  refine ⟨by rw [x.edges]; exact s.edgesNodup, ?_, ?_, ?_, ?_, ?_⟩
  · intro n d hd; rw [x.nodes] at hd; exact Nat.lt_of_lt_of_le (s.nodeDict n d hd) x.dicts
  · intro n hn; rw [x.nodes] at hn; rw [x.holds]; exact s.nodeHolds n hn
  · intro e t ht; rw [x.holds] at ht; exact Nat.lt_of_lt_of_le (s.valid e t ht) x.len
  · rw [x.nodes]; exact s.dictInj
  · intro e e' t; rw [x.holds, x.holds]; exact s.inj e e' t

theorem Ext.layersOf {h h' : Heap} (x : Ext h h') (s : Sep h) (e : Elt) : h'.layersOf e = h.layersOf e := by
  rw [layersOf_eq, layersOf_eq, x.holds]
  cases he : h.holds e with
  | none => rfl
  | some t => simp [-List.getD_eq_getElem?_getD, x.getD (s.valid e t he)]

theorem ext_newSet (h : Heap) (xs : List Atom) : Ext h (h.newSet xs).1 := by
  refine ⟨rfl, rfl, rfl, ?_, ⟨[xs], rfl⟩, Nat.le_refl _⟩
  intro e; cases e <;> rfl

theorem newSet_getD (h : Heap) (xs : List Atom) : (h.newSet xs).1.sets.getD (h.newSet xs).2 [] = xs := by
  simp [newSet]

theorem Sep.not_len {h : Heap} (s : Sep h) (e : Elt) : h.holds e ≠ some h.sets.length :=
  fun he => Nat.lt_irrefl _ (s.valid e _ he)

/-- the layers meant by a `layers` argument -/
def argLayers (h : Heap) : Option Nat → List Atom
  | none => [.str h.ns]
  | some s => if (h.sets.getD s []).isEmpty then [.str h.ns] else h.sets.getD s []

/-- an unheld, valid set reference -/
def FreeSet (h : Heap) (s : Nat) : Prop := s < h.sets.length ∧ ∀ e, h.holds e ≠ some s

theorem layersArg_spec {h : Heap} (sp : Sep h) {a : Option Nat} (hf : ∀ x, a = some x → FreeSet h x) :
    Ext h (h.layersArg a).1 ∧ FreeSet (h.layersArg a).1 (h.layersArg a).2 ∧
    (h.layersArg a).1.sets.getD (h.layersArg a).2 [] = h.argLayers a ∧ (h.layersArg a).1.dicts = h.dicts := by
  have hnew : ∀ xs, FreeSet (h.newSet xs).1 (h.newSet xs).2 := by
    intro xs
    refine ⟨by simp [newSet], fun e => ?_⟩
    rw [(ext_newSet h xs).holds]; exact sp.not_len e
  cases a with
  | none => exact ⟨ext_newSet _ _, hnew _, newSet_getD _ _, rfl⟩
  | some s =>
    by_cases hh : (h.sets.getD s []).isEmpty = true
    · have e1 : h.layersArg (some s) = h.newSet [.str h.ns] := by simp only [layersArg, if_pos hh]
      have e2 : h.argLayers (some s) = [.str h.ns] := by simp only [argLayers, if_pos hh]
      rw [e1, e2]
      exact ⟨ext_newSet _ _, hnew _, newSet_getD _ _, rfl⟩
    · have e1 : h.layersArg (some s) = (h, s) := by simp only [layersArg, if_neg hh]
      have e2 : h.argLayers (some s) = h.sets.getD s [] := by simp only [argLayers, if_neg hh]
      rw [e1, e2]
      exact ⟨⟨rfl, rfl, rfl, fun _ => rfl, ⟨[], by simp⟩, Nat.le_refl _⟩, hf s rfl, rfl, rfl⟩

theorem attrDict_spec {h : Heap} (sp : Sep h) (s : Nat) {ad : Option Nat}
    (hf : ∀ x, ad = some x → x < h.dicts.length ∧ ∀ n, find h.nodes n ≠ some x) :
    Ext h (h.attrDict s ad).1 ∧ (h.attrDict s ad).1.dicts.getD (h.attrDict s ad).2 none = some s ∧
    (h.attrDict s ad).1.sets = h.sets ∧ (h.attrDict s ad).2 < (h.attrDict s ad).1.dicts.length ∧
    ∀ n, find h.nodes n ≠ some (h.attrDict s ad).2 := by
  cases ad with
  | none =>
    have hno : ∀ n, find h.nodes n ≠ some h.dicts.length := fun n hn => Nat.lt_irrefl _ (sp.nodeDict n _ hn)
    refine ⟨⟨rfl, rfl, rfl, ?_, ⟨[], by simp [attrDict]⟩, by simp [attrDict]⟩, by simp [attrDict], rfl, by simp [attrDict], hno⟩
    intro e
    cases e with
    | edge u v k => rfl
    | node n =>
      simp only [holds, attrDict]
      cases hd : find h.nodes n with
      | none => rfl
      | some d => simp [List.getElem?_append_left (sp.nodeDict n d hd)]
  | some d0 =>
    obtain ⟨h1, h2⟩ := hf d0 rfl
    refine ⟨⟨rfl, rfl, rfl, ?_, ⟨[], by simp [attrDict]⟩, by simp [attrDict]⟩, by simp [attrDict, h1], rfl, by simp [attrDict, h1], h2⟩
    intro e
    cases e with
    | edge u v k => rfl
    | node n =>
      simp only [holds, attrDict]
      cases hd : find h.nodes n with
      | none => rfl
      | some d =>
        have : d0 ≠ d := fun he => h2 n (he ▸ hd)
        simp [List.getElem?_set_ne this]

/-- `h'` is `h` except that element `e` now holds layers `xs` -/
structure SetsLayers (h h' : Heap) (e : Elt) (xs : List Atom) : Prop where
  elt : h'.layersOf e = some xs
  others : ∀ e', e' ≠ e → h'.layersOf e' = h.layersOf e'

theorem addNode_spec {h : Heap} (sp : Sep h) (n : NodeId) {a ad : Option Nat} (hf : Op.Fresh h (.addNode n a ad)) :
    Sep (h.addNode n a ad) ∧
    SetsLayers h (h.addNode n a ad) (.node n)
      (match h.layersOf (.node n) with | none => h.argLayers a | some old => setUnion old (h.argLayers a)) ∧
    (h.addNode n a ad).edges = h.edges ∧ (h.addNode n a ad).ns = h.ns ∧
    (∀ m, m ∈ keys (h.addNode n a ad).nodes ↔ m ∈ keys h.nodes ∨ m = n) ∧
    (∀ s, FreeSet h s → (a ≠ some s) → FreeSet (h.addNode n a ad) s ∧ (h.addNode n a ad).sets.getD s [] = h.sets.getD s []) := by
  obtain ⟨hf1, hf2⟩ := hf
  obtain ⟨x1, fs, hcont, hdicts⟩ := layersArg_spec sp hf1
  unfold addNode
  generalize hL : h.layersArg a = L at *
  obtain ⟨h1, s⟩ := L
  simp only at x1 fs hcont hdicts ⊢
  have sp1 := x1.sep sp
  obtain ⟨x2, hds, hsets, hdlt, hdno⟩ := attrDict_spec sp1 s (ad := ad) (by rw [hdicts, x1.nodes]; exact hf2)
  generalize hA : h1.attrDict s ad = A at *
  obtain ⟨h2, d⟩ := A
  simp only at x2 hds hsets hdlt hdno ⊢
  have sp2 := x2.sep sp1
  have hl2 : ∀ e, h2.layersOf e = h.layersOf e := fun e => (x2.layersOf sp1 e).trans (x1.layersOf sp e)
  have hn2 : h2.nodes = h.nodes := x2.nodes.trans x1.nodes
  have hfs2 : FreeSet h2 s := ⟨by rw [hsets]; exact fs.1, fun e => by rw [x2.holds]; exact fs.2 e⟩
  have hcont2 : h2.sets.getD s [] = h.argLayers a := by rw [hsets, hcont]
  have hfree : ∀ t, FreeSet h t → FreeSet h2 t ∧ h2.sets.getD t [] = h.sets.getD t [] := by
    intro t ht
    refine ⟨⟨Nat.lt_of_lt_of_le ht.1 (Nat.le_trans x1.len x2.len), fun e => by rw [x2.holds, x1.holds]; exact ht.2 e⟩, ?_⟩
    rw [hsets]; exact x1.getD ht.1
  cases hfd : find h2.nodes n with
  | none =>
    simp only
    have hnone : h.layersOf (.node n) = none := by rw [← hl2, layersOf_eq]; simp [holds, hfd]
    have hh : ∀ e, holds { h2 with nodes := put h2.nodes n d } e = if e = .node n then some s else h2.holds e := by
      intro e
      cases e with
      | edge u v k => simp [holds]
      | node m =>
        simp only [holds, find_put, Elt.node.injEq]
        by_cases hm : n = m
        · subst hm; simp [-List.getD_eq_getElem?_getD, hds]
        · rw [if_neg hm, if_neg (fun h => hm (Eq.symm h))]
    refine ⟨⟨sp2.edgesNodup, ?_, ?_, ?_, ?_, ?_⟩, ⟨?_, ?_⟩, ?_, ?_, ?_, ?_⟩
    · intro m d' hd'
      simp only [find_put] at hd'
      split at hd'
      · simp at hd'; subst hd'; exact hdlt
      · exact sp2.nodeDict m d' hd'
    · intro m hm
      rw [hh]
      split
      · exact ⟨s, rfl⟩
      · rename_i hne
        rw [mem_keys_put] at hm
        rcases hm with hm | hm
        · exact sp2.nodeHolds m hm
        · exact absurd (by rw [hm]) hne
    · intro e t ht
      rw [hh] at ht
      split at ht
      · simp at ht; subst ht; exact hfs2.1
      · exact sp2.valid e t ht
    · intro m m' d' hm hm'
      simp only [find_put] at hm hm'
      have hdno' : ∀ m, find h2.nodes m ≠ some d := by rw [x2.nodes]; exact hdno
      split at hm <;> split at hm'
      · simp_all
      · simp at hm; subst hm; exact absurd hm' (hdno' _)
      · simp at hm'; subst hm'; exact absurd hm (hdno' _)
      · exact sp2.dictInj m m' d' hm hm'
    · intro e e' t ht ht'
      rw [hh] at ht ht'
      split at ht <;> split at ht'
      · simp_all
      · simp at ht; subst ht; exact absurd ht' (hfs2.2 _)
      · simp at ht'; subst ht'; exact absurd ht (hfs2.2 _)
      · exact sp2.inj e e' t ht ht'
    · rw [layersOf_eq, hh, hnone]; simp [-List.getD_eq_getElem?_getD, hcont2]
    · intro e' hne
      rw [← hl2, layersOf_eq, layersOf_eq, hh, if_neg hne]
    · exact x2.edges.trans x1.edges
    · exact x2.ns.trans x1.ns
    · intro m; simp only [mem_keys_put, hn2]
    · intro t ht hne
      refine ⟨⟨(hfree t ht).1.1, fun e => ?_⟩, (hfree t ht).2⟩
      rw [hh]
      split
      · intro hst
        have hst : s = t := by simpa using hst
        rw [← hst] at ht hne
        -- s free in h and not the argument: s would be a new set, whose index is out of range for h
        cases a with
        | none => simp [layersArg, newSet] at hL; exact absurd ht.1 (by rw [← hL.2]; exact Nat.lt_irrefl _)
        | some x =>
          simp only [layersArg] at hL
          split at hL
          · simp [newSet] at hL; exact absurd ht.1 (by rw [← hL.2]; exact Nat.lt_irrefl _)
          · simp at hL; exact absurd (by rw [hL.2]) hne
      · exact (hfree t ht).1.2 e
  | some dn =>
    simp only
    obtain ⟨sn, hsn⟩ := sp2.nodeHolds n ((mem_keys_iff _ _).2 ⟨dn, hfd⟩)
    have hdn : h2.dicts.getD dn none = some sn := by simpa [-List.getD_eq_getElem?_getD, holds, hfd] using hsn
    have hold : h.layersOf (.node n) = some ((h2.dictLayers dn).getD []) := by
      rw [← hl2, layersOf_eq, hsn]; simp [-List.getD_eq_getElem?_getD, dictLayers, hdn]
    rw [hold]
    simp only
    generalize hU : setUnion ((h2.dictLayers dn).getD []) (h2.sets.getD s []) = U
    have x3 := ext_newSet h2 U
    have sp3 := x3.sep sp2
    have hdlt' := sp2.nodeDict n dn hfd
    have hh : ∀ e, holds { (h2.newSet U).1 with dicts := (h2.newSet U).1.dicts.set dn (some (h2.newSet U).2) } e =
        if e = .node n then some h2.sets.length else h2.holds e := by
      intro e
      cases e with
      | edge u v k => simp [holds, newSet]
      | node m =>
        simp only [holds, newSet, Elt.node.injEq]
        by_cases hm : m = n
        · subst hm; simp [hfd, hdlt']
        · simp only [hm, if_false]
          cases hmd : find h2.nodes m with
          | none => rfl
          | some dm =>
            have : dn ≠ dm := fun he => hm (sp2.dictInj m n dm hmd (he ▸ hfd))
            simp [List.getElem?_set_ne this]
    refine ⟨⟨sp2.edgesNodup, ?_, ?_, ?_, ?_, ?_⟩, ⟨?_, ?_⟩, ?_, ?_, ?_, ?_⟩
    · intro m d' hd'
      simp only [newSet, List.length_set] at hd' ⊢
      exact sp2.nodeDict m d' hd'
    · intro m hm
      rw [hh]
      split
      · exact ⟨_, rfl⟩
      · exact sp2.nodeHolds m hm
    · intro e t ht
      rw [hh] at ht
      simp only [newSet, List.length_append, List.length_singleton]
      split at ht
      · simp at ht; omega
      · have := sp2.valid e t ht; omega
    · exact sp2.dictInj
    · intro e e' t ht ht'
      rw [hh] at ht ht'
      split at ht <;> split at ht'
      · simp_all
      · simp at ht; subst ht; exact absurd ht' (sp2.not_len _)
      · simp at ht'; subst ht'; exact absurd ht (sp2.not_len _)
      · exact sp2.inj e e' t ht ht'
    · rw [layersOf_eq, hh]; simp [newSet, ← hU, ← hcont2]
    · intro e' hne
      rw [← hl2, layersOf_eq, layersOf_eq, hh, if_neg hne]
      cases he : h2.holds e' with
      | none => rfl
      | some t =>
        have := x3.getD (sp2.valid e' t he)
        simpa [-List.getD_eq_getElem?_getD] using this
    · exact x2.edges.trans x1.edges
    · exact x2.ns.trans x1.ns
    · intro m
      simp only [newSet, hn2]
      constructor
      · exact Or.inl
      · rintro (h | h)
        · exact h
        · rw [h, ← hn2]; exact (mem_keys_iff _ _).2 ⟨dn, hfd⟩
    · intro t ht hne
      have hft := hfree t ht
      refine ⟨⟨?_, fun e => ?_⟩, ?_⟩
      · simp only [newSet, List.length_append]; have := hft.1.1; omega
      · rw [hh]
        split
        · intro h0; have := hft.1.1; simp at h0; omega
        · exact hft.1.2 e
      · rw [← hft.2]; exact x3.getD hft.1.1

/-- a client-visible summary of `ensureNode` -/
theorem ensureNode_spec {h : Heap} (sp : Sep h) (n : NodeId) :
    Sep (h.ensureNode n) ∧ (h.ensureNode n).edges = h.edges ∧ (h.ensureNode n).ns = h.ns ∧
    (∀ m, m ∈ keys (h.ensureNode n).nodes ↔ m ∈ keys h.nodes ∨ m = n) ∧
    (∀ e, (h.ensureNode n).layersOf e = if e = .node n ∧ n ∉ keys h.nodes then some [.str h.ns] else h.layersOf e) ∧
    (∀ s, FreeSet h s → FreeSet (h.ensureNode n) s ∧ (h.ensureNode n).sets.getD s [] = h.sets.getD s []) := by
  unfold ensureNode
  split
  · rename_i hh
    have hm : n ∈ keys h.nodes := by
      by_contra hc; rw [(has_false_iff _ _).2 hc] at hh; simp at hh
    refine ⟨sp, rfl, rfl, ?_, ?_, fun s hs => ⟨hs, rfl⟩⟩
    · intro m; constructor
      · exact Or.inl
      · rintro (h | h)
        · exact h
        · rw [h]; exact hm
    · intro e; simp [hm]
  · rename_i hh
    have hm : n ∉ keys h.nodes := by
      by_contra hc; exact hh ((has_iff _ _).2 hc)
    obtain ⟨h1, h2, h3, h4, h5, h6⟩ := addNode_spec sp n (a := none) (ad := none) ⟨by simp, by simp⟩
    refine ⟨h1, h3, h4, h5, ?_, fun s hs => h6 s hs (by simp)⟩
    have hnone : h.layersOf (.node n) = none := by
      rw [layersOf_eq]; simp [holds, (find_eq_none_iff _ _).2 hm]
    rw [hnone] at h2
    intro e
    by_cases he : e = .node n
    · subst he; simp [hm, h2.elt, argLayers]
    · simp [he, h2.others e he]

theorem addEdge_spec {h : Heap} (sp : Sep h) (u v : NodeId) (k : Key) {a : Option Nat} (hf : Op.Fresh h (.addEdge u v k a)) :
    Sep (h.addEdge u v k a) ∧
    (h.addEdge u v k a).layersOf (.edge u v k) =
      some (setUnion ((h.layersOf (.edge u v k)).getD []) (h.argLayers a)) ∧
    (∀ e, e ≠ .edge u v k → (h.addEdge u v k a).layersOf e =
      if (e = .node u ∨ e = .node v) ∧ ¬ h.Has e then some [.str h.ns] else h.layersOf e) := by
  obtain ⟨x1, fs, hcont, _⟩ := layersArg_spec sp (a := a) hf
  unfold addEdge
  generalize hL : h.layersArg a = L at *
  obtain ⟨h1, s⟩ := L
  simp only at x1 fs hcont ⊢
  have sp1 := x1.sep sp
  obtain ⟨spa, ea, nsa, ka, la, fa⟩ := ensureNode_spec sp1 u
  obtain ⟨spb, eb, nsb, kb, lb, fb⟩ := ensureNode_spec spa v
  generalize hB : (h1.ensureNode u).ensureNode v = h2 at *
  have hed : h2.edges = h.edges := eb.trans (ea.trans x1.edges)
  have hfs2 := fb s (fa s fs).1
  have hcont2 : h2.sets.getD s [] = h.argLayers a := by rw [hfs2.2, (fa s fs).2, hcont]
  have hlay2 : ∀ e, h2.layersOf e =
      if (e = .node u ∨ e = .node v) ∧ ¬ h.Has e then some [.str h.ns] else h.layersOf e := by
    intro e
    have hke : ∀ n, n ∈ keys h1.nodes ↔ n ∈ keys h.nodes := by rw [x1.nodes]; simp
    rw [lb, la, nsa, x1.ns, x1.layersOf sp]
    simp only [ka, hke]
    cases e with
    | edge => simp
    | node m =>
      simp only [Elt.node.injEq, Has]
      by_cases h1 : m = u <;> by_cases h2 : m = v <;> simp only [h1, h2] <;> by_cases h3 : m ∈ keys h.nodes <;> simp_all
  have hgen : ∀ (h3 : Heap) (t : Nat) (xs : List Atom), Ext h2 h3 → t < h3.sets.length → (∀ e, h2.holds e ≠ some t) →
      h3.sets.getD t [] = xs →
      Sep { h3 with edges := put h3.edges (u, v, k) t } ∧
      layersOf { h3 with edges := put h3.edges (u, v, k) t } (.edge u v k) = some xs ∧
      ∀ e, e ≠ .edge u v k → layersOf { h3 with edges := put h3.edges (u, v, k) t } e = h2.layersOf e := by
    intro h3 t xs x3 htl htn htx
    have sp3 := x3.sep spb
    have hh : ∀ e, holds { h3 with edges := put h3.edges (u, v, k) t } e = if e = .edge u v k then some t else h3.holds e := by
      intro e
      cases e with
      | node m => simp [holds]
      | edge a b c =>
        simp only [holds, find_put, Elt.edge.injEq, Prod.mk.injEq]
        by_cases hc : u = a ∧ v = b ∧ k = c
        · simp [hc]
        · rw [if_neg hc, if_neg (by rintro ⟨rfl, rfl, rfl⟩; exact hc ⟨rfl, rfl, rfl⟩)]
    refine ⟨⟨nodup_put sp3.edgesNodup _ _, sp3.nodeDict, ?_, ?_, sp3.dictInj, ?_⟩, ?_, ?_⟩
    · intro m hm; rw [hh]; simp only [reduceCtorEq, if_false]; exact sp3.nodeHolds m hm
    · intro e x hx
      rw [hh] at hx
      split at hx
      · simp at hx; subst hx; exact htl
      · exact sp3.valid e x hx
    · intro e e' x hx hx'
      rw [hh] at hx hx'
      split at hx <;> split at hx'
      · simp_all
      · simp at hx; subst hx; rw [x3.holds] at hx'; exact absurd hx' (htn _)
      · simp at hx'; subst hx'; rw [x3.holds] at hx; exact absurd hx (htn _)
      · exact sp3.inj e e' x hx hx'
    · rw [layersOf_eq, hh]; simp [-List.getD_eq_getElem?_getD, htx]
    · intro e hne
      rw [← x3.layersOf spb, layersOf_eq, layersOf_eq, hh, if_neg hne]
  have hmapold : (Dict.find h2.edges (u, v, k)).map (fun e => h2.sets.getD e []) = h.layersOf (.edge u v k) := by
    have := hlay2 (.edge u v k)
    simp only [reduceCtorEq, or_self, false_and, if_false] at this
    rw [← this]; rfl
  split
  · have x3 := ext_newSet h2 (setUnion ((h.layersOf (.edge u v k)).getD []) (h.argLayers a))
    have := hgen _ h2.sets.length (setUnion ((h.layersOf (.edge u v k)).getD []) (h.argLayers a)) x3 (by simp [newSet])
      (fun e => spb.not_len e) (newSet_getD _ _)
    rw [hmapold, hcont2]
    refine ⟨this.1, this.2.1, fun e he => (this.2.2 e he).trans (hlay2 e)⟩
  · rename_i hpair
    have hnone : h.layersOf (.edge u v k) = none := by
      rw [← hmapold]
      simp only [Option.map_eq_none_iff]
      rw [find_eq_none_iff]
      intro hmem
      apply hpair
      obtain ⟨p, hp, hp1⟩ := List.mem_map.1 hmem
      simp only [hasPair, List.any_eq_true]
      exact ⟨p, hp, by simp [hp1]⟩
    have := hgen h2 s (h.argLayers a) ⟨rfl, rfl, rfl, fun _ => rfl, ⟨[], by simp⟩, Nat.le_refl _⟩ hfs2.1.1 hfs2.1.2 hcont2
    rw [hnone]
    refine ⟨this.1, ?_, fun e he => (this.2.2 e he).trans (hlay2 e)⟩
    rw [this.2.1]
    have : (h.argLayers a).filter (fun _ => true) = h.argLayers a := List.filter_eq_self.2 (by simp)
    simp [setUnion, this]

theorem mutate_spec {h : Heap} (sp : Sep h) {s : Nat} (l : String) :
    Sep (h.mutate s l) ∧ (∀ e, (h.mutate s l).holds e = h.holds e) ∧ (h.mutate s l).edges = h.edges ∧
    (∀ e, (h.mutate s l).layersOf e = if h.holds e = some s then (h.layersOf e).map (fun xs => setAdd xs (.str l)) else h.layersOf e) := by
  have hh : ∀ e, (h.mutate s l).holds e = h.holds e := by intro e; cases e <;> rfl
  refine ⟨⟨sp.edgesNodup, sp.nodeDict, ?_, ?_, sp.dictInj, ?_⟩, hh, rfl, ?_⟩
  · intro n hn; rw [hh]; exact sp.nodeHolds n hn
  · intro e t ht; rw [hh] at ht; simp only [mutate, List.length_set]; exact sp.valid e t ht
  · intro e e' t; rw [hh, hh]; exact sp.inj e e' t
  · intro e
    rw [layersOf_eq, layersOf_eq, hh]
    cases he : h.holds e with
    | none => simp
    | some t =>
      have htl := sp.valid e t he
      by_cases hts : s = t
      · subst hts; simp [mutate, htl]
      · simp only [mutate, List.getD_eq_getElem?_getD, Option.map_some, List.getElem?_set_ne hts, Option.some.injEq]
        rw [if_neg (fun h => hts (Eq.symm h))]

theorem mutateAll_spec (l : String) (ss : List Nat) : ∀ {h : Heap}, Sep h → 
    Sep (ss.foldl (fun h s => h.mutate s l) h) ∧
    (∀ e, (ss.foldl (fun h s => h.mutate s l) h).holds e = h.holds e) ∧
    ∀ e, (∀ s ∈ ss, h.holds e ≠ some s) → (ss.foldl (fun h s => h.mutate s l) h).layersOf e = h.layersOf e := by
  induction ss with
  | nil => intro h sp; exact ⟨sp, fun _ => rfl, fun _ _ => rfl⟩
  | cons s ss ih =>
    intro h sp
    obtain ⟨m1, m2, m3, m4⟩ := mutate_spec sp (s := s) l
    obtain ⟨i1, i2, i3⟩ := ih m1
    refine ⟨i1, fun e => (i2 e).trans (m2 e), ?_⟩
    intro e he
    have h1 := i3 e (fun s' hs' => by rw [m2]; exact he s' (List.mem_cons_of_mem _ hs'))
    rw [List.foldl_cons, h1, m4, if_neg (he s (by simp))]

theorem mutateAll_mem (l : String) (ss : List Nat) (nd : ss.Nodup) : ∀ {h : Heap}, Sep h → ∀ e s, s ∈ ss → h.holds e = some s →
    (ss.foldl (fun h s => h.mutate s l) h).layersOf e = (h.layersOf e).map (fun xs => setAdd xs (.str l)) := by
  induction ss with
  | nil => intro h _ e s hs; simp at hs
  | cons t ss ih =>
    intro h sp e s hs he
    obtain ⟨m1, m2, m3, m4⟩ := mutate_spec sp (s := t) l
    simp only [List.nodup_cons] at nd
    rcases List.mem_cons.1 hs with rfl | hs'
    · rw [List.foldl_cons, (mutateAll_spec l ss m1).2.2 e, m4, if_pos he]
      intro s' hs' hh
      rw [m2, he] at hh
      simp at hh
      exact nd.1 (hh ▸ hs')
    · rw [List.foldl_cons, ih nd.2 m1 e s hs' (by rw [m2]; exact he), m4, if_neg]
      intro hh; rw [he] at hh; simp at hh; exact nd.1 (hh ▸ hs')

theorem addLayerEdge_spec {h : Heap} (sp : Sep h) (u v : NodeId) (l : String) :
    Sep (h.addLayerEdge u v l) ∧
    (∀ k, (h.addLayerEdge u v l).layersOf (.edge u v k) = (h.layersOf (.edge u v k)).map (fun xs => setAdd xs (.str l))) ∧
    (∀ e, (∀ k, e ≠ .edge u v k) → (h.addLayerEdge u v l).layersOf e = h.layersOf e) := by
  unfold addLayerEdge
  generalize hss : (h.edges.filter (fun p => p.1.1 = u && p.1.2.1 = v)).map Prod.snd = ss
  have hmem : ∀ s, s ∈ ss ↔ ∃ k, h.holds (.edge u v k) = some s := by
    intro s
    rw [← hss]
    simp only [List.mem_map, List.mem_filter, Bool.and_eq_true, decide_eq_true_eq, holds]
    constructor
    · rintro ⟨⟨⟨a, b, k⟩, t⟩, ⟨hp, rfl, rfl⟩, rfl⟩
      exact ⟨k, mem_find sp.edgesNodup hp⟩
    · rintro ⟨k, hk⟩
      exact ⟨((u, v, k), s), ⟨find_some_mem hk, rfl, rfl⟩, rfl⟩
  have hnd : ss.Nodup := by
    rw [← hss]
    have h1 : (h.edges.map Prod.snd).Nodup := by
      have hnd2 : h.edges.Nodup := List.Nodup.of_map _ sp.edgesNodup
      rw [List.nodup_map_iff_inj_on hnd2]
      rintro ⟨⟨a, b, c⟩, s⟩ hp ⟨⟨a', b', c'⟩, s'⟩ hp' (rfl : s = s')
      have e1 : h.holds (.edge a b c) = some s := mem_find sp.edgesNodup hp
      have e2 : h.holds (.edge a' b' c') = some s := mem_find sp.edgesNodup hp'
      have := sp.inj _ _ _ e1 e2
      simp at this
      simp [this]
    exact h1.sublist (List.Sublist.map _ List.filter_sublist)
  obtain ⟨s1, s2, s3⟩ := mutateAll_spec l ss sp
  refine ⟨s1, ?_, ?_⟩
  · intro k
    cases hk : h.holds (.edge u v k) with
    | none =>
      rw [s3 _ (by intro s _; rw [hk]; simp), layersOf_eq, hk]; rfl
    | some s => exact mutateAll_mem l ss hnd sp _ s ((hmem s).2 ⟨k, hk⟩) hk
  · intro e he
    apply s3
    intro s hs hh
    obtain ⟨k, hk⟩ := (hmem s).1 hs
    exact he k (sp.inj _ _ _ hh hk)

theorem addLayerNode_spec {h : Heap} (sp : Sep h) (n : NodeId) (l : String) :
    Sep (h.addLayerNode n l) ∧
    (h.addLayerNode n l).layersOf (.node n) = (h.layersOf (.node n)).map (fun xs => setAdd xs (.str l)) ∧
    ∀ e, e ≠ .node n → (h.addLayerNode n l).layersOf e = h.layersOf e := by
  unfold addLayerNode
  have hdef : (Dict.find h.nodes n).bind (fun d => h.dicts.getD d none) = h.holds (.node n) := rfl
  rw [hdef]
  cases hs : h.holds (.node n) with
  | none => exact ⟨sp, by rw [layersOf_eq, hs]; rfl, fun _ _ => rfl⟩
  | some s =>
    obtain ⟨m1, m2, _, m4⟩ := mutate_spec sp (s := s) l
    refine ⟨m1, by rw [m4, if_pos hs], fun e he => ?_⟩
    rw [m4, if_neg]
    intro hh; exact he (sp.inj _ _ _ hh hs)

theorem sep_init (ns : String) (root : NodeId) : Sep (init ns root) := by
  apply (addNode_spec (h := { ns := ns, sets := [], dicts := [], nodes := [], edges := [] }) ?_ root ⟨by simp, by simp⟩).1
  refine ⟨by simp [keys], by simp, by simp [keys], ?_, by simp, ?_⟩
  · intro e s; cases e <;> simp [holds]
  · intro e e' s; cases e <;> simp [holds]

theorem sep_step {h : Heap} (sp : Sep h) {op : Op} (hf : op.Fresh h) : Sep (h.step op) := by
  cases op with
  | newSet xs => exact (ext_newSet h xs).sep sp
  | newDict =>
    refine Ext.sep (h := h) ⟨rfl, rfl, rfl, ?_, ⟨[], by simp [step, newDict]⟩, by simp [step, newDict]⟩ sp
    intro e
    cases e with
    | edge => rfl
    | node n =>
      simp only [holds, step, newDict]
      cases hd : find h.nodes n with
      | none => rfl
      | some d => simp [List.getElem?_append_left (sp.nodeDict n d hd)]
  | addNode n s d => exact (addNode_spec sp n hf).1
  | addEdge u v k s => exact (addEdge_spec sp u v k hf).1
  | addLayerNode n l => exact (addLayerNode_spec sp n l).1
  | addLayerEdge u v l => exact (addLayerEdge_spec sp u v l).1

/-- Client histories in which no set or dict object is passed to the graph while the graph already holds it. -/
inductive FreshRun (ns : String) (root : NodeId) : Heap → Prop
  | init : FreshRun ns root (init ns root)
  | step {h : Heap} {op : Op} : FreshRun ns root h → op.Fresh h → FreshRun ns root (h.step op)

theorem FreshRun.sep {ns : String} {root : NodeId} {h : Heap} (r : FreshRun ns root h) : Sep h := by
  induction r with
  | init => exact sep_init _ _
  | step _ hf ih => exact sep_step ih hf

/-- **C07 with object identities.**  If the client never passes a set or dict object the graph already holds, then `add_layer(n, l)`
changes the layers of exactly the node `n`, by adding `l`. -/
theorem c07_heap_add_layer_node_partial (ns : String) (root : NodeId) (h : Heap) (r : FreshRun ns root h) (n : NodeId) (l : String) :
    (h.step (.addLayerNode n l)).layersOf (.node n) = (h.layersOf (.node n)).map (fun xs => setAdd xs (.str l)) ∧
    ∀ e, e ≠ .node n → (h.step (.addLayerNode n l)).layersOf e = h.layersOf e :=
  (addLayerNode_spec r.sep n l).2

/-- Same for `add_layer((u, v), l)`: exactly the parallel edges from `u` to `v` get the layer. -/
theorem c07_heap_add_layer_edge_partial (ns : String) (root : NodeId) (h : Heap) (r : FreshRun ns root h) (u v : NodeId) (l : String) :
    (∀ k, (h.step (.addLayerEdge u v l)).layersOf (.edge u v k) = (h.layersOf (.edge u v k)).map (fun xs => setAdd xs (.str l))) ∧
    (∀ e, (∀ k, e ≠ .edge u v k) → (h.step (.addLayerEdge u v l)).layersOf e = h.layersOf e) :=
  (addLayerEdge_spec r.sep u v l).2

/-- For such clients the object-level effect of `add_node` on layers is the value-level one (union; nothing else changes): this
justifies the value model. -/
theorem c07_heap_add_node_partial (ns : String) (root : NodeId) (h : Heap) (r : FreshRun ns root h) (n : NodeId) (a ad : Option Nat)
    (hf : Op.Fresh h (.addNode n a ad)) :
    (h.step (.addNode n a ad)).layersOf (.node n) = some
      (match h.layersOf (.node n) with | none => h.argLayers a | some old => setUnion old (h.argLayers a)) ∧
    ∀ e, e ≠ .node n → (h.step (.addNode n a ad)).layersOf e = h.layersOf e :=
  ⟨(addNode_spec r.sep n hf).2.1.elt, (addNode_spec r.sep n hf).2.1.others⟩

/-- ... and that of `add_edge`. -/
theorem c07_heap_add_edge_partial (ns : String) (root : NodeId) (h : Heap) (r : FreshRun ns root h) (u v : NodeId) (k : Key) (a : Option Nat)
    (hf : Op.Fresh h (.addEdge u v k a)) :
    (h.step (.addEdge u v k a)).layersOf (.edge u v k) = some (setUnion ((h.layersOf (.edge u v k)).getD []) (h.argLayers a)) ∧
    ∀ e, e ≠ .edge u v k → (h.step (.addEdge u v k a)).layersOf e =
      if (e = .node u ∨ e = .node v) ∧ ¬ h.Has e then some [.str h.ns] else h.layersOf e :=
  (addEdge_spec r.sep u v k hf).2

/-- The code violates C07 when a set object is passed twice: `s = {'a'}; add_node(1, s); add_node(2, s); add_layer(1, 'x')` also puts
node 2 into layer `x`. -/
theorem c07_fails_for_shared_set :
    let h0 := ((init "dg" (.str "r")).step (.newSet [.str "a"]))
    let h := [Op.addNode (.int 1) (some 1) none, .addNode (.int 2) (some 1) none, .addLayerNode (.int 1) "x"].foldl step h0
    h.layersOf (.node (.int 2)) = some [.str "a", .str "x"] := by decide

/-- A shared `attr_dict` is worse: `d = {}; add_node(1, {'a'}, d); add_node(2, {'b'}, d)` replaces the layers of node 1. -/
theorem c07_fails_for_shared_dict :
    let h0 := [Op.newSet [.str "a"], .newSet [.str "b"], .newDict].foldl step (init "dg" (.str "r"))
    let h1 := h0.step (.addNode (.int 1) (some 1) (some 1))
    let h2 := h1.step (.addNode (.int 2) (some 2) (some 1))
    h1.layersOf (.node (.int 1)) = some [.str "a"] ∧ h2.layersOf (.node (.int 1)) = some [.str "b"] := by decide

/-- non-vacuity: passing a fresh set display in every call is a `FreshRun` -/
example : ∃ h, FreshRun "dg" (.str "r") h ∧ h.layersOf (.edge (.int 1) (.int 2) (.int 0)) = some [.str "a"] ∧
    h.layersOf (.node (.int 2)) = some [.str "dg"] := by
  refine ⟨((init "dg" (.str "r")).step (.newSet [.str "a"])).step (.addEdge (.int 1) (.int 2) (.int 0) (some 1)), ?_, by decide, by decide⟩
  refine FreshRun.step (FreshRun.step FreshRun.init trivial) ?_
  intro x hx
  simp at hx; subst hx
  refine ⟨by decide, ?_⟩
  intro e
  cases e with
  | node n =>
    by_cases hn : n = .str "r"
    · subst hn; decide
    · simp [holds, step, newSet, init, addNode, layersArg, attrDict, put, find, show ¬ NodeId.str "r" = n from fun h => hn (Eq.symm h)]
  | edge u v k => simp [holds, step, newSet, init, addNode, layersArg, attrDict]

end Heap
end Dg
