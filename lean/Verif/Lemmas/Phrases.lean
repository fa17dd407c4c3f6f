import Verif.Model.Phrases
import Verif.Lemmas.Relabel
import Verif.Lemmas.Chains
import Verif.Lemmas.SetAttr
import Verif.Spec.Script
import Verif.Props.C08

/-! Lemmas about the queries for phrases. -/

namespace Dg
open Dict

namespace DG

theorem mem_collect_yieldIf' {α : Type} (f : α → Except PyErr Bool) : ∀ (xs : List α), ∀ y ∈ (Gen.collect (fun p => yieldIf p (f p)) xs).1, y ∈ xs
  | [], y, hy => by simp [Gen.collect] at hy
  | x :: xs, y, hy => by
    unfold Gen.collect at hy
    cases hfx : f x with
    | error e => simp [hfx, yieldIf, bind, Except.bind] at hy
    | ok b =>
      cases b with
      | true =>
        simp only [hfx, yieldIf_true, List.mem_cons] at hy
        rcases hy with rfl | hy
        · simp
        · exact List.mem_cons_of_mem _ (mem_collect_yieldIf' f xs y hy)
      | false =>
        simp only [hfx, yieldIf, bind, Except.bind] at hy
        exact List.mem_cons_of_mem _ (mem_collect_yieldIf' f xs y hy)

theorem mapE_eq_map {α β : Type} {f : α → Except PyErr β} (h : α → β) : ∀ {xs : List α}, (∀ x ∈ xs, f x = .ok (h x)) → mapE f xs = .ok (xs.map h)
  | [], _ => rfl
  | x :: xs, hf => by
    unfold mapE
    rw [hf x (by simp)]
    simp only [bind, Except.bind]
    rw [mapE_eq_map h (fun y hy => hf y (by simp [hy]))]
    rfl

theorem mapE_all_key {α β : Type} {f : α → Except PyErr β} : ∀ {xs : List α}, (∀ x ∈ xs, ∀ e, f x = .error e → e = .key) → (∃ x ∈ xs, f x = .error .key) → mapE f xs = .error .key
  | [], _, h => by obtain ⟨_, h, _⟩ := h; cases h
  | x :: xs, ha, he => by
    unfold mapE
    cases hx : f x with
    | error e =>
      rw [ha x (by simp) e hx]; rfl
    | ok y =>
      simp only [bind, Except.bind]
      rw [mapE_all_key (fun z hz => ha z (by simp [hz]))]
      obtain ⟨z, hz, e⟩ := he
      rcases List.mem_cons.1 hz with rfl | hz
      · rw [hx] at e; cases e
      · exact ⟨z, hz, e⟩


/-- the sources of the edges from PPs -/
def ppSources (g : DG) (n : NodeId) : List NodeId :=
  ((g.inEdges n).filter (fun e => decide (g.nodeAttr e.1 "tiger:cat" = some (.atom (.str "PP"))))).map Prod.fst

theorem mem_ppSources {g : DG} (wf : WF g) {n p : NodeId} :
    p ∈ g.ppSources n ↔ (∃ a, g.EdgeWith p n a) ∧ g.nodeAttr p "tiger:cat" = some (.atom (.str "PP")) := by
  unfold ppSources
  simp only [List.mem_map, List.mem_filter, decide_eq_true_eq]
  constructor
  · rintro ⟨⟨u, v, k, a⟩, ⟨h1, h2⟩, rfl⟩
    exact ⟨⟨a, k, ((mem_inEdges wf _ _ _ _ _).1 h1).2⟩, h2⟩
  · rintro ⟨⟨a, k, h1⟩, h2⟩
    exact ⟨(p, n, k, a), ⟨(mem_inEdges wf _ _ _ _ _).2 ⟨rfl, h1⟩, h2⟩, rfl⟩

theorem ppParents_ok {g : DG} (hi : Inv g) (n : NodeId) : ∃ ps, mapE g.ppParent (g.inEdges n) = .ok ps ∧ ps.flatten = g.ppSources n := by
  refine ⟨_, mapE_eq_map (fun e => if g.nodeAttr e.1 "tiger:cat" = some (.atom (.str "PP")) then [e.1] else []) ?_, ?_⟩
  · rintro ⟨u, v, k, a⟩ h
    have h := (mem_inEdges hi.wf _ _ _ _ _).1 h
    have hu : g.HasNode u := by
      unfold edgeAttrs at h
      obtain ⟨_, h⟩ := h
      cases hk : g.kd? u n with
      | none => rw [hk] at h; cases h
      | some kd => exact kd?_source hi.wf hk
    obtain ⟨b, hb⟩ := (hasNode_iff _ _).1 hu
    unfold ppParent
    have hb' : Dict.find g.nodes u = some b := hb
    simp only [hb', nodeAttr, hb, Option.bind_some]
  · unfold ppSources
    induction g.inEdges n with
    | nil => rfl
    | cons e es ih =>
      simp only [List.map_cons, List.flatten_cons, ih, List.filter_cons]
      by_cases h : g.nodeAttr e.1 "tiger:cat" = some (.atom (.str "PP"))
      · simp [h]
      · simp [h]

/-- what one node adds -/
def markablesOf (g : DG) (n : NodeId) : List NodeId :=
  if g.nodeAttr n "tiger:cat" = some (.atom (.str "NP")) then (if g.ppSources n = [] then [n] else g.ppSources n)
  else if g.nodeAttr n "tiger:cat" = some (.atom (.str "PP")) then [n]
  else []

theorem markableStep_ok {g : DG} (hi : Inv g) {n : NodeId} {a : Attrs} (ha : g.nodeAttrs n = some a) {v : Val} (hv : g.nodeAttr n "tiger:cat" = some v) :
    g.markableStep (n, a) = .ok (g.markablesOf n) := by
  have hf : find a "tiger:cat" = some v := by simpa [nodeAttr, ha] using hv
  obtain ⟨ps, h1, h2⟩ := ppParents_ok hi n
  unfold markableStep markablesOf featAt
  simp only [hf, bind, Except.bind, hv, Option.some.injEq, h1, h2]
  by_cases c1 : v = .atom (.str "NP")
  · simp only [c1, if_true]
    cases hp : g.ppSources n <;> simp [pure, Except.pure]
  · simp only [c1, if_false]
    by_cases c2 : v = .atom (.str "PP")
    · simp [c2, pure, Except.pure]
    · simp [c2, pure, Except.pure]

theorem markableStep_key {g : DG} {n : NodeId} {a : Attrs} (ha : g.nodeAttrs n = some a) (hv : g.nodeAttr n "tiger:cat" = none) :
    g.markableStep (n, a) = .error .key := by
  have hf : find a "tiger:cat" = none := by simpa [nodeAttr, ha] using hv
  unfold markableStep featAt
  simp only [hf, bind, Except.bind]

/-- the selection with attributes -/
theorem selectData_wf {g : DG} (wf : WF g) (hl : AllLayered g) (l : String) :
    ∃ ps, g.selectNodesByLayerData (.one l) = (ps, none) ∧ (ps.map Prod.fst).Nodup ∧ (∀ n a, (n, a) ∈ ps → g.nodeAttrs n = some a) ∧
      ∀ n, n ∈ ps.map Prod.fst ↔ g.NodeLayer n (.str l) := by
  obtain ⟨ids, h1, h2, _, h4⟩ := selectNodesByLayer_wf wf hl (.one l)
  unfold selectNodesByLayer Gen.map at h1
  have hsub : ∀ n a, (n, a) ∈ (g.selectNodesByLayerData (.one l)).1 → g.nodeAttrs n = some a := by
    intro n a h
    rw [← mem_nodes_iff wf]
    unfold selectNodesByLayerData at h
    exact mem_collect_yieldIf' _ _ _ h
  generalize g.selectNodesByLayerData (.one l) = r at h1 hsub
  obtain ⟨ps, e⟩ := r
  simp only [Prod.mk.injEq] at h1
  obtain ⟨rfl, rfl⟩ := h1
  refine ⟨ps, rfl, h2, hsub, ?_⟩
  intro n
  rw [h4]
  constructor
  · exact fun h => h.2
  · intro h
    exact ⟨by obtain ⟨a, ha, _⟩ := h; exact (hasNode_iff _ _).2 ⟨a, ha⟩, h⟩

end DG
end Dg
