import Verif.Model.Labels
import Verif.Lemmas.Relabel
import Verif.Lemmas.Edges
import Verif.Lemmas.GraphStep
import Verif.Lemmas.Text
import Verif.Spec.Offsets
import Batteries.Lean.Except

/-! C50: make_labels_explicit. -/

namespace Dg
open Dict
namespace DG

/-- `b` is `a` with the label `l` (or without one) -/
def Relabelled (a b : Attrs) (l : Option Val) : Prop := find b "label" = l ∧ ∀ x, x ≠ "label" → find b x = find a x

/-- no two edges with the same source and target -/
def NoParallel (g : DG) : Prop := ∀ u v k k', g.HasEdge u v k → g.HasEdge u v k' → k = k'

/-- the label of an edge after the call: `label_edgetype`, or the edge type if there was no label -/
def edgeLabel (fmt : Val → String) (a : Attrs) : Option Val :=
  match find a "label", find a "edge_type" with
  | some l, some t => some (.atom (.str (fmt l ++ "_" ++ fmt t)))
  | none, t => t
  | some l, none => some l

/-- what make_labels_explicit must do -/
structure Explicit (fmt : Val → String) (g g' : DG) : Prop where
  nodes : ∀ n, (g.nodeAttrs n = none ∧ g'.nodeAttrs n = none) ∨ ∃ a b, g.nodeAttrs n = some a ∧ g'.nodeAttrs n = some b ∧
    Relabelled a b ((find a "label").map (fun l => .atom (.str (fmt l ++ "_" ++ String.ofList n.chars))))
  edges : ∀ u v k, (g.edgeAttrs u v k = none ∧ g'.edgeAttrs u v k = none) ∨ ∃ a b, g.edgeAttrs u v k = some a ∧ g'.edgeAttrs u v k = some b ∧ Relabelled a b (edgeLabel fmt a)
  rest : SameMeta g g'

theorem find_mapKV {K V W : Type} [DecidableEq K] (d : Dict K V) (f : K → V → W) (k : K) : find (d.map (fun p => (p.1, f p.1 p.2))) k = (find d k).map (f k) := by
  induction d with
  | nil => simp
  | cons p d ih =>
    obtain ⟨k0, v0⟩ := p
    by_cases h : k0 = k
    · subst h; simp
    · simp [h, ih]

theorem explicitNode_spec (fmt : Val → String) (n : NodeId) (a : Attrs) :
    Relabelled a (explicitNode fmt n a) ((find a "label").map (fun l => .atom (.str (fmt l ++ "_" ++ String.ofList n.chars)))) := by
  unfold explicitNode
  cases hf : find a "label" with
  | none => exact ⟨hf, fun _ _ => rfl⟩
  | some v => exact ⟨by simp [find_put, formatTwo], fun x hx => find_put_ne _ _ (Ne.symm hx)⟩

/-- one edge without parallel edges -/
theorem explicitKeys_single (fmt : Val → String) (k : Key) (a : Attrs) {t : Val} (ht : find a "edge_type" = some t) :
    ∃ b, explicitKeys fmt k [(k, a)] [k] = .ok [(k, b)] ∧ Relabelled a b (edgeLabel fmt a) := by
  have hfk : find [(k, a)] k = some a := by simp
  unfold explicitKeys
  rw [hfk]
  simp only
  cases hl : find a "label" with
  | none =>
    have : has a "label" = false := by rw [has_false_iff, ← find_eq_none_iff]; exact hl
    refine ⟨put a "label" t, ?_, ?_⟩
    · simp [explicitLabel, this, ht, explicitKeys, put]
    · exact ⟨by simp [find_put, edgeLabel, hl, ht], fun x hx => find_put_ne _ _ (Ne.symm hx)⟩
  | some l =>
    have : has a "label" = true := by rw [has_iff, mem_keys_iff]; exact ⟨l, hl⟩
    refine ⟨put a "label" (formatTwo fmt l (fmt t)), ?_, ?_⟩
    · simp [explicitLabel, this, ht, hl, explicitKeys, put]
    · exact ⟨by simp [find_put, edgeLabel, hl, ht, formatTwo], fun x hx => find_put_ne _ _ (Ne.symm hx)⟩

theorem explicitEdges_spec (fmt : Val → String) (es : List (NodeId × NodeId × Key)) : ∀ g : DG, (es.map (fun e => (e.1, e.2.1))).Nodup →
    (∀ e ∈ es, ∃ a t, g.kd? e.1 e.2.1 = some [(e.2.2, a)] ∧ find a "edge_type" = some t) →
    ∃ g', explicitEdges fmt g es = .ok g' ∧ g'.nodes = g.nodes ∧ SameMeta g g' ∧
      (∀ u v k, (u, v, k) ∈ es → ∃ a b, g.kd? u v = some [(k, a)] ∧ g'.kd? u v = some [(k, b)] ∧ Relabelled a b (edgeLabel fmt a)) ∧
      (∀ u v, (u, v) ∉ es.map (fun e => (e.1, e.2.1)) → g'.kd? u v = g.kd? u v) := by
  induction es with
  | nil => intro g _ _; exact ⟨g, rfl, rfl, ⟨rfl, rfl, rfl, rfl, rfl, rfl, rfl⟩, by simp, fun _ _ _ => rfl⟩
  | cons e es ih =>
    intro g nd h
    obtain ⟨u, v, k⟩ := e
    obtain ⟨a, t, hkd, ht⟩ := h (u, v, k) (by simp)
    simp only at hkd
    obtain ⟨b, hb1, hb2⟩ := explicitKeys_single fmt k a ht
    have hu : u ∈ keys g.adj := by
      have hkd' := hkd
      unfold kd? at hkd'
      cases hf : find g.adj u with
      | none => rw [hf] at hkd'; simp at hkd'
      | some nb => exact (mem_keys_iff _ _).2 ⟨nb, hf⟩
    have hput := kd?_putKeyDict (v := v) hu [(k, b)]
    rw [List.map_cons, List.nodup_cons] at nd
    obtain ⟨g', h1, h2, h3, h4, h5⟩ := ih (g.putKeyDict u v [(k, b)]) nd.2 (by
      intro e he
      rw [hput, if_neg]
      · exact h e (List.mem_cons_of_mem _ he)
      · rintro ⟨e1, e2⟩
        exact nd.1 (List.mem_map.2 ⟨e, he, by rw [e1, e2]⟩))
    refine ⟨g', ?_, by rw [h2, nodes_putKeyDict], ?_, ?_, ?_⟩
    · have hkd' : (find g.adj u).bind (find · v) = some [(k, a)] := hkd
      have hkeys : keys ([(k, a)] : KeyDict) = [k] := rfl
      unfold explicitEdges
      rw [hkd']
      simp only [hkeys, hb1]
      exact h1
    · obtain ⟨a1, a2, a3, a4, a5, a6, a7⟩ := h3
      obtain ⟨b1, b2, b3, b4, b5, b6, b7⟩ := sameMeta_putKeyDict g u v [(k, b)]
      exact ⟨a1.trans b1, a2.trans b2, a3.trans b3, a4.trans b4, a5.trans b5, a6.trans b6, a7.trans b7⟩
    · intro u' v' k' hm
      rcases List.mem_cons.1 hm with e | hm
      · simp only [Prod.mk.injEq] at e
        obtain ⟨rfl, rfl, rfl⟩ := e
        refine ⟨a, b, hkd, ?_, hb2⟩
        rw [h5 _ _ nd.1, hput, if_pos ⟨rfl, rfl⟩]
      · obtain ⟨a', b', e1, e2, e3⟩ := h4 u' v' k' hm
        refine ⟨a', b', ?_, e2, e3⟩
        rw [hput, if_neg] at e1
        · exact e1
        · rintro ⟨rfl, rfl⟩
          exact nd.1 (List.mem_map.2 ⟨_, ‹(_, _, k') ∈ es›, rfl⟩)
    · intro u' v' hn
      rw [List.map_cons, List.mem_cons, not_or] at hn
      rw [h5 u' v' hn.2, hput, if_neg]
      rintro ⟨rfl, rfl⟩
      exact hn.1 rfl

theorem kd?_single {g : DG} (wf : WF g) (hp : NoParallel g) {u v : NodeId} {k : Key} {a : Attrs} (h : g.edgeAttrs u v k = some a) : g.kd? u v = some [(k, a)] := by
  have h' := h
  unfold edgeAttrs at h
  cases hk : g.kd? u v with
  | none => rw [hk] at h; simp at h
  | some kd =>
    rw [hk] at h
    simp only [Option.bind_some] at h
    have nd := wf.kdNodup _ _ _ hk
    have hall : ∀ p ∈ kd, p = (k, a) := by
      intro p hp'
      have f : g.edgeAttrs u v p.1 = some p.2 := by unfold edgeAttrs; rw [hk]; exact mem_find nd hp'
      have : p.1 = k := hp u v _ _ (by unfold HasEdge; rw [f]; rfl) (by unfold HasEdge; rw [h']; rfl)
      obtain ⟨k', a'⟩ := p
      simp only at this; subst this
      rw [h'] at f; injection f with f; simp at f; rw [f]
    match kd with
    | [] => simp at h
    | [p] => rw [hall p (by simp)]
    | p :: q :: r =>
      rw [hall p (by simp), hall q (by simp)] at nd
      simp [keys] at nd

/-- **C50, partial**.  For every document graph without parallel edges whose edges all have a type, make_labels_explicit appends `_<node ID>` to every node label and `_<edge type>`
to every edge label (an edge without label gets its type as label), and changes nothing else.  Missing: parallel edges, see `c50_fails_for_parallel_edges`. -/
theorem c50_make_labels_explicit_partial (fmt : Val → String) (g : DG) (hr : Reachable g) (hp : NoParallel g) (ht : Typed g) :
    ∃ g', g.makeLabelsExplicit fmt = .ok g' ∧ Explicit fmt g g' := by
  have wf := hr.inv.wf
  have hadj : (g.makeNodelabelsExplicit fmt).adj = g.adj := rfl
  have hedges : (g.makeNodelabelsExplicit fmt).edges = g.edges := rfl
  have hkd0 : ∀ u v, (g.makeNodelabelsExplicit fmt).kd? u v = g.kd? u v := fun _ _ => rfl
  have hmem : ∀ u v k, (u, v, k) ∈ g.edges.map (fun e => (e.1, e.2.1, e.2.2.1)) ↔ ∃ a, g.edgeAttrs u v k = some a := by
    intro u v k
    rw [List.mem_map]
    constructor
    · rintro ⟨⟨u', v', k', a⟩, hm, e⟩
      simp only [Prod.mk.injEq] at e
      obtain ⟨rfl, rfl, rfl⟩ := e
      exact ⟨a, (mem_edges_iff wf _ _ _ _).1 hm⟩
    · rintro ⟨a, ha⟩
      exact ⟨_, (mem_edges_iff wf _ _ _ _).2 ha, rfl⟩
  have hnd : ((g.edges.map (fun e => (e.1, e.2.1, e.2.2.1))).map (fun e => (e.1, e.2.1))).Nodup := by
    apply List.Nodup.map_on _ (edges_triple_nodup wf)
    rintro ⟨u, v, k⟩ h1 ⟨u', v', k'⟩ h2 e
    simp only [Prod.mk.injEq] at e
    obtain ⟨rfl, rfl⟩ := e
    obtain ⟨a, ha⟩ := (hmem u v k).1 h1
    obtain ⟨a', ha'⟩ := (hmem u v k').1 h2
    rw [hp u v k k' (by unfold HasEdge; rw [ha]; rfl) (by unfold HasEdge; rw [ha']; rfl)]
  obtain ⟨g', h1, h2, h3, h4, h5⟩ := explicitEdges_spec fmt (g.edges.map (fun e => (e.1, e.2.1, e.2.2.1))) (g.makeNodelabelsExplicit fmt) hnd (by
    rintro ⟨u, v, k⟩ he
    obtain ⟨a, ha⟩ := (hmem u v k).1 he
    obtain ⟨t, ht⟩ := ht u v k a ha
    exact ⟨a, t, (hkd0 u v).trans (kd?_single wf hp ha), ht⟩)
  refine ⟨g', by unfold makeLabelsExplicit; simp only [hedges]; exact h1, ⟨?_, ?_, ?_⟩⟩
  · intro n
    have hn : g'.nodeAttrs n = (g.nodeAttrs n).map (explicitNode fmt n) := by
      unfold nodeAttrs
      rw [h2]
      exact find_mapKV g.nodes (explicitNode fmt) n
    rw [hn]
    cases ha : g.nodeAttrs n with
    | none => left; simp
    | some a => right; exact ⟨a, _, rfl, rfl, explicitNode_spec fmt n a⟩
  · intro u v k
    cases ha : g.edgeAttrs u v k with
    | some a =>
      right
      obtain ⟨a', b, e1, e2, e3⟩ := h4 u v k ((hmem u v k).2 ⟨a, ha⟩)
      rw [hkd0, kd?_single wf hp ha] at e1
      simp only [Option.some.injEq, List.cons.injEq, Prod.mk.injEq, true_and, and_true] at e1
      subst e1
      refine ⟨a, b, rfl, ?_, e3⟩
      unfold edgeAttrs; rw [e2]; simp
    | none =>
      left
      refine ⟨rfl, ?_⟩
      by_cases hin : (u, v) ∈ (g.edges.map (fun e => (e.1, e.2.1, e.2.2.1))).map (fun e => (e.1, e.2.1))
      · obtain ⟨⟨u', v', k'⟩, hm, e⟩ := List.mem_map.1 hin
        simp only [Prod.mk.injEq] at e
        obtain ⟨rfl, rfl⟩ := e
        obtain ⟨a', b, e1, e2, e3⟩ := h4 u' v' k' hm
        rw [hkd0] at e1
        unfold edgeAttrs at ha ⊢
        rw [e1] at ha
        rw [e2]
        by_cases hk : k' = k
        · subst hk; simp at ha
        · simp [hk]
      · unfold edgeAttrs at ha ⊢
        rw [h5 u v hin, hkd0]; exact ha
  · exact h3

/-- Finding: an edge of a pair of parallel edges gets the label and type of the other one, several times. -/
theorem c50_fails_for_parallel_edges :
    let g := (init "" "dg" (some (.str "r"))).run [.addNode (.int 1) (.atom .none) .none [],
      .addEdge (.str "r") (.int 1) (.atom .none) none .none [("edge_type", .atom (.str "a")), ("label", .atom (.str "x"))],
      .addEdge (.str "r") (.int 1) (.atom .none) none .none [("edge_type", .atom (.str "b")), ("label", .atom (.str "y"))]]
    let fmt : Val → String := fun v => match v with | .atom (.str s) => s | _ => ""
    (g.makeLabelsExplicit fmt).toOption.map (fun g' => (g'.edgeAttr (.str "r") (.int 1) (.int 0) "label", g'.edgeAttr (.str "r") (.int 1) (.int 1) "label")) =
      some (some (.atom (.str "x_a_a_b")), some (.atom (.str "x_a_a_b"))) := by decide +kernel

def labelDoc : DG := (init "" "dg" (some (.str "r"))).run [.addNode (.int 1) (.atom .none) .none [("label", .atom (.str "n"))], .addNode (.int 2) (.atom .none) .none [],
      .addEdge (.str "r") (.int 1) (.atom .none) none .none [("edge_type", .atom (.str "a")), ("label", .atom (.str "x"))],
      .addEdge (.str "r") (.int 2) (.atom .none) none .none [("edge_type", .atom (.str "b"))]]

theorem labelDoc_reachable : Reachable labelDoc := ⟨"", "dg", some (.str "r"), _, by decide, rfl⟩

example : labelDoc.NoParallel ∧ labelDoc.Typed := by
  have hw : WF labelDoc := labelDoc_reachable.inv.wf
  have hmem : ∀ u v k a, labelDoc.edgeAttrs u v k = some a → (u, v, k, a) ∈ labelDoc.edges := fun u v k a h => (mem_edges_iff hw _ _ _ _).2 h
  have h1 : ∀ e ∈ labelDoc.edges, ∀ f ∈ labelDoc.edges, e.1 = f.1 → e.2.1 = f.2.1 → e.2.2.1 = f.2.2.1 := by decide
  have h2 : ∀ e ∈ labelDoc.edges, (find e.2.2.2 "edge_type").isSome := by decide
  refine ⟨?_, ?_⟩
  · intro u v k k' hk hk'
    obtain ⟨a, ha⟩ := Option.isSome_iff_exists.1 hk
    obtain ⟨a', ha'⟩ := Option.isSome_iff_exists.1 hk'
    exact h1 _ (hmem _ _ _ _ ha) _ (hmem _ _ _ _ ha') rfl rfl
  · intro u v k a ha
    exact Option.isSome_iff_exists.1 (h2 _ (hmem _ _ _ _ ha))

end DG
end Dg
