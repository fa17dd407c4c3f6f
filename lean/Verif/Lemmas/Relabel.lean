import Verif.Lemmas.Edges
import Verif.Spec.Rename
import Verif.Model.Merge
import Verif.Spec.Edges

namespace Dg
open Dict
namespace DG

theorem SameAttrs.refl (a : Attrs) : SameAttrs a a := ⟨fun _ _ => rfl, fun _ => Iff.rfl⟩
theorem SameAttrs.symm {a b : Attrs} (h : SameAttrs a b) : SameAttrs b a := ⟨fun x hx => (h.1 x hx).symm, fun l => (h.2 l).symm⟩
theorem SameAttrs.trans {a b c : Attrs} (h : SameAttrs a b) (h' : SameAttrs b c) : SameAttrs a c :=
  ⟨fun x hx => (h.1 x hx).trans (h'.1 x hx), fun l => (h.2 l).trans (h'.2 l)⟩

/-- one tuple of add_edges_from without common attributes -/
theorem addEdgeItem_plain {g : DG} (hi : Inv g) {dd : Attrs} {u v : NodeId} (key : Option Key)
    (ndd : (keys dd).Nodup) (hl : LayeredNE dd) :
    ∃ g' a, g.addEdgeItem [] u v key dd = (g', none) ∧ Inv g' ∧ SetsEdge g g' u v (key.getD (freshKey ((g.kd? u v).getD []))) a ∧
      (∀ x, x ≠ "layers" → find a x = (find dd x).or (g.edgeAttr u v (key.getD (freshKey ((g.kd? u v).getD []))) x)) ∧
      (∀ l, AttrsLayer a l ↔ g.EdgeLayer u v (key.getD (freshKey ((g.kd? u v).getD []))) l ∨ AttrsLayer dd l) := by
  cases h : g.addEdgeItem [] u v key dd with
  | mk g' e =>
    have hm := sameMeta_addEdgeItem g [] u v key dd
    rw [h] at hm
    obtain ⟨xs, hxs, hstr, hne⟩ := hl
    rcases addEdgeItem_view hi (by simp [keys]) ndd h with ⟨_, _, hno⟩ | ⟨rfl, k, a, layers, hk, hlay, hinv, hkd, hx, ⟨L, hL, _, _, hin, hout⟩, hn⟩
    · exfalso; apply hno
      refine ⟨⟨xs, ?_, hstr⟩, [], rfl⟩
      unfold layersEntry
      rw [find_defaultLayers, hxs]; rfl
    · subst hk
      rw [hxs] at hlay
      simp only [Option.getD_some, Val.set.injEq] at hlay
      subst hlay
      refine ⟨g', a, rfl, hinv, setsEdge_of_view hkd hn hm, ?_, ?_⟩
      · intro x hx'; rw [hx x hx']; simp
      · intro l
        have hnil : ∀ l, ¬ AttrsLayer [] l := by rintro l ⟨xs, h, _⟩; simp at h
        constructor
        · rintro ⟨L', hL', hl'⟩
          rw [hL] at hL'; injection hL' with hL'; injection hL' with hL'; subst hL'
          rcases hout l hl' with h1 | h1 | h1 | h1
          · exact Or.inl h1
          · exact Or.inr ⟨_, hxs, h1⟩
          · exact (hnil l h1).elim
          · exact (hne h1.1).elim
        · rintro (h1 | ⟨ys, hys, h1⟩)
          · exact ⟨_, hL, hin l (Or.inl h1)⟩
          · rw [hxs] at hys; injection hys with hys; injection hys with hys; subst hys
            exact ⟨_, hL, hin l (Or.inr (Or.inl h1))⟩

/-- a list of edges as 4-tuples for add_edges_from -/
def asE4 (es : List Edge) : List EdgeItem := es.map (fun e => EdgeItem.e4 e.1 e.2.1 e.2.2.1 e.2.2.2)

theorem addKeyed {es : List Edge} : ∀ {g : DG}, Inv g →
    (∀ e ∈ es, (keys e.2.2.2).Nodup ∧ LayeredNE e.2.2.2 ∧ g.HasNode e.1 ∧ g.HasNode e.2.1) →
    (∀ e ∈ es, ∀ e' ∈ es, e.triple = e'.triple → SameAttrs e.2.2.2 e'.2.2.2) →
    (∀ e ∈ es, ∀ a, g.edgeAttrs e.1 e.2.1 e.2.2.1 = some a → SameAttrs e.2.2.2 a) →
    ∃ g', addEdgesLoop [] g (asE4 es) = (g', none) ∧ Inv g' ∧ SameMeta g g' ∧ (∀ n, g'.nodeAttrs n = g.nodeAttrs n) ∧
      (∀ e ∈ es, ∃ a, g'.edgeAttrs e.1 e.2.1 e.2.2.1 = some a ∧ SameAttrs e.2.2.2 a) ∧
      (∀ u v k, (u, v, k) ∉ es.map Edge.triple → g'.edgeAttrs u v k = g.edgeAttrs u v k) := by
  induction es with
  | nil => intro g hi _ _ _; exact ⟨g, rfl, hi, SameMeta.refl g, fun _ => rfl, by simp, fun _ _ _ _ => rfl⟩
  | cons e es ih =>
    intro g hi hok hcons hold
    obtain ⟨u, v, k, dd⟩ := e
    obtain ⟨ndd, hl, hu, hv⟩ := hok (u, v, k, dd) (by simp)
    obtain ⟨g1, a, h1, hi1, hs, ha1, ha2⟩ := addEdgeItem_plain hi (some k) ndd hl (u := u) (v := v)
    simp only [Option.getD_some] at hs ha1 ha2
    have hsame : SameAttrs dd a := by
      cases ho : g.edgeAttrs u v k with
      | none =>
        refine ⟨fun x hx => ?_, fun l => ?_⟩
        · rw [ha1 x hx]; unfold edgeAttr; rw [ho]; simp
        · rw [ha2]; unfold EdgeLayer; rw [ho]; simp
      | some b =>
        have hb := hold (u, v, k, dd) (by simp) b ho
        refine ⟨fun x hx => ?_, fun l => ?_⟩
        · rw [ha1 x hx]; unfold edgeAttr; rw [ho]
          simp only [Option.bind_some, ← hb.1 x hx]
          cases find dd x <;> simp
        · rw [ha2]; unfold EdgeLayer; rw [ho]
          simp only [Option.some.injEq, exists_eq_left']
          rw [← hb.2 l]; simp
    have hn1 : ∀ n, g1.nodeAttrs n = g.nodeAttrs n := by
      intro n
      rw [hs.nodes]
      split
      · rename_i hc
        have : g.HasNode n := by rcases hc with rfl | rfl; exacts [hu, hv]
        obtain ⟨b, hb⟩ := (mem_keys_iff _ _).1 this
        unfold nodeAttrs; rw [hb]; rfl
      · rfl
    have hhas : ∀ n, g.HasNode n → g1.HasNode n := by
      intro n hn
      obtain ⟨b, hb⟩ := (mem_keys_iff _ _).1 hn
      exact (mem_keys_iff _ _).2 ⟨b, by have := hn1 n; unfold nodeAttrs at this; rw [this, hb]⟩
    obtain ⟨g', h2, hi2, hm2, hn2, he2, ho2⟩ := ih (g := g1) hi1
      (fun e he => by
        obtain ⟨p1, p2, p3, p4⟩ := hok e (List.mem_cons_of_mem _ he)
        exact ⟨p1, p2, hhas _ p3, hhas _ p4⟩)
      (fun e he e' he' => hcons e (List.mem_cons_of_mem _ he) e' (List.mem_cons_of_mem _ he'))
      (fun e he b hb => by
        by_cases ht : e.triple = (u, v, k)
        · have h3 := hcons e (List.mem_cons_of_mem _ he) (u, v, k, dd) (by simp) ht
          simp only [Edge.triple, Prod.mk.injEq] at ht
          rw [ht.1, ht.2.1, ht.2.2, hs.edge] at hb
          injection hb with hb; subst hb
          exact h3.trans hsame
        · rw [hs.others _ _ _ ht] at hb
          exact hold e (List.mem_cons_of_mem _ he) b hb)
    refine ⟨g', ?_, hi2, hs.rest.trans hm2, fun n => (hn2 n).trans (hn1 n), ?_, ?_⟩
    · show addEdgesLoop [] g (EdgeItem.e4 u v k dd :: asE4 es) = _
      unfold addEdgesLoop
      simp only [h1]
      exact h2
    · intro e he
      rcases List.mem_cons.1 he with rfl | he
      · by_cases hm : (u, v, k) ∈ es.map Edge.triple
        · obtain ⟨e', he', ht⟩ := List.mem_map.1 hm
          obtain ⟨b, hb, hsb⟩ := he2 e' he'
          have h3 := hcons (u, v, k, dd) (by simp) e' (List.mem_cons_of_mem _ he') ht.symm
          simp only [Edge.triple, Prod.mk.injEq] at ht
          rw [ht.1, ht.2.1, ht.2.2] at hb
          exact ⟨b, hb, h3.trans hsb⟩
        · refine ⟨a, ?_, hsame⟩
          rw [ho2 _ _ _ hm]; exact hs.edge
      · exact he2 e he
    · intro u' v' k' hn
      simp only [List.map_cons, List.mem_cons, not_or] at hn
      rw [ho2 _ _ _ hn.2]
      exact hs.others _ _ _ (by simpa [Edge.triple] using hn.1)

theorem mem_outEdges {g : DG} (wf : WF g) (n u v : NodeId) (k : Key) (a : Attrs) :
    (u, v, k, a) ∈ g.outEdges n ↔ u = n ∧ g.edgeAttrs n v k = some a := by
  unfold outEdges
  simp only [List.mem_flatMap, List.mem_map]
  constructor
  · rintro ⟨⟨v', kd⟩, h1, ⟨k', a'⟩, h2, heq⟩
    simp only [Prod.mk.injEq] at heq
    obtain ⟨rfl, rfl, rfl, rfl⟩ := heq
    refine ⟨rfl, ?_⟩
    cases f : find g.adj n with
    | none => rw [f] at h1; simp at h1
    | some nb =>
      rw [f] at h1
      have f2 := mem_find (wf.nbrsNodup _ _ f) h1
      have hkd : g.kd? n v' = some kd := by unfold kd?; rw [f]; exact f2
      unfold edgeAttrs; rw [hkd]
      exact mem_find (wf.kdNodup _ _ _ hkd) h2
  · rintro ⟨rfl, h⟩
    unfold edgeAttrs kd? at h
    cases f : find g.adj u with
    | none => rw [f] at h; simp at h
    | some nb =>
      rw [f] at h; simp only [Option.bind_some] at h
      cases f2 : find nb v with
      | none => rw [f2] at h; simp at h
      | some kd =>
        rw [f2] at h; simp only [Option.bind_some] at h
        exact ⟨(v, kd), find_some_mem f2, (k, a), find_some_mem h, rfl⟩

theorem mem_inEdges {g : DG} (wf : WF g) (n u v : NodeId) (k : Key) (a : Attrs) :
    (u, v, k, a) ∈ g.inEdges n ↔ v = n ∧ g.edgeAttrs u n k = some a := by
  unfold inEdges
  simp only [List.mem_filter, mem_edges_iff wf, decide_eq_true_eq]
  constructor
  · rintro ⟨h, rfl⟩; exact ⟨rfl, h⟩
  · rintro ⟨rfl, h⟩; exact ⟨h, rfl⟩

/-- swapping in a new name for one node -/
def rename1 (old new n : NodeId) : NodeId := if n = old then new else n

theorem edge_ends {g : DG} (wf : WF g) {u v : NodeId} {k : Key} {a : Attrs} (h : g.edgeAttrs u v k = some a) :
    g.HasNode u ∧ g.HasNode v := by
  unfold edgeAttrs at h
  cases hk : g.kd? u v with
  | none => rw [hk] at h; simp at h
  | some kd => exact ⟨kd?_source wf hk, wf.target _ _ _ hk⟩

theorem hasNode_iff' {g : DG} {n : NodeId} : g.HasNode n ↔ ∃ a, g.nodeAttrs n = some a := mem_keys_iff _ _

/-- one step of relabelling -/
theorem relabelOne_spec {g : DG} (hi : Inv g) (hl : NodesLayeredNE g) {old new : NodeId} (ho : g.HasNode old) (hn : ¬ g.HasNode new)
    (ht : new.truthy = true ∨ ∀ k, ¬ g.HasEdge old old k) :
    ∃ g', g.relabelOne old new = (g', none) ∧ Inv g' ∧ NodesLayeredNE g' ∧ Renamed (rename1 old new) g g' := by
  obtain ⟨a, ha⟩ := hasNode_iff'.1 ho
  obtain ⟨xs, hxs, hstr, hne⟩ := hl old a ha
  have hon : old ≠ new := fun h => hn (h ▸ ho)
  -- add_node
  have hadd : g.addNode new (.set xs) (.dict a) [] = .ok (g.newNode new a) := by
    unfold addNode
    have h1 : g.checkLayers (.set xs) = .ok xs := (checkLayers_iff _ _ _).2 (.given hne hstr)
    have h2 : mergeAttrArg (.dict a) [] xs .assertion = .ok a := by
      unfold mergeAttrArg
      show Except.ok (put a "layers" (.set xs)) = _
      rw [put_find_self hxs]
    have h3 : find g.nodes new = none := (find_eq_none_iff _ _).2 hn
    simp only [h1, h2, h3, bind, Except.bind]
  generalize hg1 : g.newNode new a = g1 at *
  have hi1 : Inv g1 := by
    have := inv_addNode hi (n := new) (layers := .set xs) (ad := .dict a) (attr := []) (by simp [keys]) (hi.attrs.node _ _ ha) hadd
    exact this
  have hkd1 : ∀ u v, g1.kd? u v = g.kd? u v := by intro u v; rw [← hg1]; exact kd?_newNode hi.wf hn _ _ _
  have he1 : ∀ u v k, g1.edgeAttrs u v k = g.edgeAttrs u v k := edgeAttrs_of_kd? hkd1
  have hn1 : ∀ m, g1.nodeAttrs m = if m = new then some a else g.nodeAttrs m := by intro m; rw [← hg1]; exact nodeAttrs_newNode _ _ _ _
  have hm1 : SameMeta g g1 := by rw [← hg1]; exact sameMeta_newNode _ _ _
  -- remove_node
  have hrem : ∃ g2, g1.removeNode old = .ok g2 := by
    unfold removeNode
    have : has g1.nodes old = true := (has_iff _ _).2 (hasNode_iff'.2 ⟨a, by rw [hn1, if_neg hon]; exact ha⟩)
    rw [if_pos this]; exact ⟨_, rfl⟩
  obtain ⟨g2, hg2⟩ := hrem
  obtain ⟨_, hi2, hn2, hkd2⟩ := removeNode_ok hi1 hg2
  have hm2 : SameMeta g1 g2 := by
    unfold removeNode at hg2; split at hg2
    · injection hg2 with hg2; subst hg2; exact ⟨rfl, rfl, rfl, rfl, rfl, rfl, rfl⟩
    · simp at hg2
  have he2 : ∀ u v k, g2.edgeAttrs u v k = if u = old ∨ v = old then none else g.edgeAttrs u v k := by
    intro u v k
    unfold edgeAttrs
    rw [hkd2, hkd1]
    split <;> simp
  have hnode2 : ∀ m, g2.nodeAttrs m = if m = old then none else if m = new then some a else g.nodeAttrs m := by
    intro m; rw [hn2, hn1]
  -- the edges to be added
  let es : List Edge := (g1.outEdges old).map (fun e => (new, renameEnd old new e.2.1, e.2.2.1, e.2.2.2)) ++
    (g1.inEdges old).map (fun e => (renameEnd old new e.1, new, e.2.2.1, e.2.2.2))
  have hes : g1.newEdges old new = asE4 es := by
    unfold newEdges asE4
    simp [es, Function.comp_def]
  have hend : ∀ x k b, (g.edgeAttrs old x k = some b ∨ g.edgeAttrs x old k = some b) → renameEnd old new x = rename1 old new x := by
    intro x k b hb
    unfold renameEnd rename1
    split
    · rename_i hx
      rcases ht with ht | ht
      · simp [ht]
      · subst hx
        exfalso
        apply ht k
        unfold HasEdge
        rcases hb with hb | hb <;> rw [hb] <;> rfl
    · rfl
  have hmem : ∀ u v k b, (u, v, k, b) ∈ es ↔ ∃ u0 v0, g.edgeAttrs u0 v0 k = some b ∧ (u0 = old ∨ v0 = old) ∧
      u = rename1 old new u0 ∧ v = rename1 old new v0 := by
    intro u v k b
    simp only [es, List.mem_append, List.mem_map]
    constructor
    · rintro (⟨⟨u1, v1, k1, b1⟩, h1, h2⟩ | ⟨⟨u1, v1, k1, b1⟩, h1, h2⟩)
      · rw [mem_outEdges hi1.wf] at h1
        simp only [Prod.mk.injEq] at h2
        obtain ⟨rfl, h1⟩ := h1
        rw [he1] at h1
        obtain ⟨rfl, rfl, rfl, rfl⟩ := h2
        exact ⟨u1, v1, h1, Or.inl rfl, by simp [rename1], hend _ _ _ (Or.inl h1)⟩
      · rw [mem_inEdges hi1.wf] at h1
        simp only [Prod.mk.injEq] at h2
        obtain ⟨rfl, h1⟩ := h1
        rw [he1] at h1
        obtain ⟨rfl, rfl, rfl, rfl⟩ := h2
        exact ⟨u1, v1, h1, Or.inr rfl, hend _ _ _ (Or.inr h1), by simp [rename1]⟩
    · rintro ⟨u0, v0, h1, h2, rfl, rfl⟩
      rcases h2 with rfl | rfl
      · left
        refine ⟨(u0, v0, k, b), (mem_outEdges hi1.wf _ _ _ _ _).2 ⟨rfl, by rw [he1]; exact h1⟩, ?_⟩
        simp only [Prod.mk.injEq, and_true]
        exact ⟨by simp [rename1], hend _ _ _ (Or.inl h1)⟩
      · right
        refine ⟨(u0, v0, k, b), (mem_inEdges hi1.wf _ _ _ _ _).2 ⟨rfl, by rw [he1]; exact h1⟩, ?_⟩
        simp only [Prod.mk.injEq, and_true]
        exact ⟨hend _ _ _ (Or.inr h1), by simp [rename1]⟩
  have hinj : ∀ n m, g.HasNode n → g.HasNode m → rename1 old new n = rename1 old new m → n = m := by
    intro n m h1 h2 h3
    unfold rename1 at h3
    split at h3 <;> split at h3
    · rename_i p q; rw [p, q]
    · exact absurd (h3 ▸ h2) hn
    · exact absurd (h3 ▸ h1) hn
    · exact h3
  have hnode2' : ∀ m, g.HasNode m → g2.HasNode (rename1 old new m) := by
    intro m hm
    rw [hasNode_iff']
    unfold rename1
    split
    · exact ⟨a, by rw [hnode2, if_neg (Ne.symm hon), if_pos rfl]⟩
    · rename_i hmo
      obtain ⟨b, hb⟩ := hasNode_iff'.1 hm
      refine ⟨b, ?_⟩
      rw [hnode2, if_neg hmo, if_neg (fun (h : m = new) => hn (h ▸ hm)), hb]
  have hsep : ∀ u0 v0 k b, g.edgeAttrs u0 v0 k = some b → (u0 = old ∨ v0 = old) → g2.edgeAttrs (rename1 old new u0) (rename1 old new v0) k = none := by
    intro u0 v0 k b hb hc
    rw [he2]
    split
    · rfl
    · cases hcase : g.edgeAttrs (rename1 old new u0) (rename1 old new v0) k with
      | none => rfl
      | some c =>
        exfalso
        obtain ⟨p, q⟩ := edge_ends hi.wf hcase
        rcases hc with rfl | rfl
        · exact hn (by simpa [rename1] using p)
        · exact hn (by simpa [rename1] using q)
  obtain ⟨g', h', hi', hm', hnn', hadded, hothers⟩ := addKeyed (es := es) hi2
    (by
      rintro ⟨u, v, k, b⟩ he
      obtain ⟨u0, v0, h1, h2, rfl, rfl⟩ := (hmem _ _ _ _).1 he
      obtain ⟨p, q⟩ := edge_ends hi.wf h1
      exact ⟨hi.attrs.edge _ _ _ _ h1, hi.edges _ _ _ _ h1, hnode2' _ p, hnode2' _ q⟩)
    (by
      rintro ⟨u, v, k, b⟩ he ⟨u', v', k', b'⟩ he' heq
      simp only [Edge.triple, Prod.mk.injEq] at heq
      obtain ⟨rfl, rfl, rfl⟩ := heq
      obtain ⟨u0, v0, h1, h2, e1, e2⟩ := (hmem _ _ _ _).1 he
      obtain ⟨u1, v1, h1', h2', e1', e2'⟩ := (hmem _ _ _ _).1 he'
      obtain ⟨p, q⟩ := edge_ends hi.wf h1
      obtain ⟨p', q'⟩ := edge_ends hi.wf h1'
      have := hinj _ _ p p' (e1.symm.trans e1'); subst this
      have := hinj _ _ q q' (e2.symm.trans e2'); subst this
      rw [h1] at h1'; injection h1' with h1'; subst h1'
      exact SameAttrs.refl _)
    (by
      rintro ⟨u, v, k, b⟩ he c hc
      obtain ⟨u0, v0, h1, h2, rfl, rfl⟩ := (hmem _ _ _ _).1 he
      have := hsep _ _ _ _ h1 h2
      rw [this] at hc
      simp at hc)
  have hrel : g.relabelOne old new = (g', none) := by
    unfold relabelOne
    have h1 : find g.nodes old = some a := ha
    have h2 : layersEntry a = .ok (.set xs) := by unfold layersEntry; rw [hxs]
    simp only [h1, h2, hadd, hg2]
    unfold addEdgesFrom
    rw [hes]; exact h'
  refine ⟨g', hrel, hi', ?_, hinj, ?_, ?_, ?_, ?_, (hm1.trans hm2).trans hm'⟩
  · intro m b hb
    rw [hnn', hnode2] at hb
    split at hb
    · simp at hb
    · split at hb
      · injection hb with hb; subst hb; exact hl _ _ ha
      · exact hl _ _ hb
  · intro m b hb
    refine ⟨b, ?_, SameAttrs.refl _⟩
    rw [hnn', hnode2]
    unfold rename1
    split
    · rename_i hmo
      rw [if_neg (Ne.symm hon), if_pos rfl]
      subst hmo; rw [ha] at hb; exact hb
    · rename_i hmo
      rw [if_neg (fun (h : m = new) => hn (h ▸ hasNode_iff'.2 ⟨b, hb⟩))]; exact hb
  · intro m hm
    obtain ⟨b, hb⟩ := hasNode_iff'.1 hm
    rw [hnn', hnode2] at hb
    split at hb
    · simp at hb
    · rename_i hmo
      split at hb
      · rename_i hmn
        exact ⟨old, ho, by simp [rename1, hmn]⟩
      · exact ⟨m, hasNode_iff'.2 ⟨b, hb⟩, by simp [rename1, hmo]⟩
  · intro u v k b hb
    by_cases hc : u = old ∨ v = old
    · exact hadded (rename1 old new u, rename1 old new v, k, b) ((hmem _ _ _ _).2 ⟨u, v, hb, hc, rfl, rfl⟩)
    · have hu : rename1 old new u = u := by unfold rename1; rw [if_neg (fun h => hc (Or.inl h))]
      have hv : rename1 old new v = v := by unfold rename1; rw [if_neg (fun h => hc (Or.inr h))]
      refine ⟨b, ?_, SameAttrs.refl _⟩
      rw [hu, hv, hothers, he2, if_neg hc, hb]
      intro hm
      obtain ⟨⟨u1, v1, k1, b1⟩, he, ht⟩ := List.mem_map.1 hm
      simp only [Edge.triple, Prod.mk.injEq] at ht
      obtain ⟨rfl, rfl, rfl⟩ := ht
      obtain ⟨u0, v0, h1, h2, e1, e2⟩ := (hmem _ _ _ _).1 he
      obtain ⟨p, q⟩ := edge_ends hi.wf hb
      rcases h2 with rfl | rfl
      · rw [e1] at p; exact hn (by simpa [rename1] using p)
      · rw [e2] at q; exact hn (by simpa [rename1] using q)
  · intro u' v' k hE
    by_cases hm : (u', v', k) ∈ es.map Edge.triple
    · obtain ⟨⟨u1, v1, k1, b1⟩, he, ht⟩ := List.mem_map.1 hm
      simp only [Edge.triple, Prod.mk.injEq] at ht
      obtain ⟨rfl, rfl, rfl⟩ := ht
      obtain ⟨u0, v0, h1, h2, e1, e2⟩ := (hmem _ _ _ _).1 he
      exact ⟨u0, v0, by unfold HasEdge; rw [h1]; rfl, e1.symm, e2.symm⟩
    · unfold HasEdge at hE
      rw [hothers _ _ _ hm, he2] at hE
      split at hE
      · simp at hE
      · rename_i hc
        refine ⟨u', v', hE, ?_, ?_⟩
        · unfold rename1; rw [if_neg (fun h => hc (Or.inl h))]
        · unfold rename1; rw [if_neg (fun h => hc (Or.inr h))]

end DG
end Dg
