/-
PAULA export: the parts of a document (C66).
-/
import Verif.Spec.Paula
import Verif.Props.C11
import Verif.Lemmas.Offsets
import Verif.Lemmas.GetOffsets
import Verif.Lemmas.Chains
import Verif.Lemmas.Script
import Verif.Lemmas.RstLatexTree
import Verif.Props.C20

namespace Dg
open Dict (find keys vals put find_put mem_find find_some_mem nodup_put mem_keys_put mem_keys_iff find_eq_none_iff)

/-! ### groups of edges -/

theorem grouped_step {d : Dict NodeId (Dict NodeId Attrs)} {done : List (NodeId × NodeId × Attrs)} (h : Grouped (fun u v a => (u, v, a) ∈ done) d) (e : NodeId × NodeId × Attrs) :
    Grouped (fun u v a => (u, v, a) ∈ done ++ [e]) (groupEdge d e) := by
  obtain ⟨u, v, a⟩ := e
  have nk : (keys d).Nodup := h.sources
  have ninner : (keys ((find d u).getD [])).Nodup := by
    cases hf : find d u with
    | none => simp [keys]
    | some x => exact (h.targets (u, x) (find_some_mem hf)).2
  have nk' := nodup_put nk u (put ((find d u).getD []) v a)
  have hm : ∀ p, p ∈ groupEdge d (u, v, a) ↔ find (groupEdge d (u, v, a)) p.1 = some p.2 := fun p => ⟨fun hp => mem_find nk' hp, fun hp => find_some_mem hp⟩
  have hf : ∀ k, find (groupEdge d (u, v, a)) k = if u = k then some (put ((find d u).getD []) v a) else find d k := by
    intro k; exact find_put _ _ _ _
  refine ⟨nk', ?_, ?_, ?_⟩
  · intro p hp
    have := (hm p).1 hp
    rw [hf] at this
    split at this
    · injection this with this
      rw [← this]
      refine ⟨?_, nodup_put ninner v a⟩
      intro hc
      have h1 : v ∈ keys (put ((find d u).getD []) v a) := (mem_keys_put _ _ _ _).2 (Or.inr rfl)
      rw [hc] at h1; simp [keys] at h1
    · exact h.targets p (find_some_mem this)
  · intro p hp q hq
    have := (hm p).1 hp
    rw [hf] at this
    split at this
    · rename_i hu
      injection this with this
      rw [← this] at hq
      have hq' := mem_find (nodup_put ninner v a) (k := q.1) (v := q.2) hq
      rw [find_put] at hq'
      split at hq'
      · rename_i hv
        injection hq' with hq'
        rw [← hu, ← hv, ← hq']; simp
      · have hne : find d u ≠ none := by intro hc; rw [hc] at hq'; simp at hq'
        obtain ⟨x, hx⟩ := Option.ne_none_iff_exists'.1 hne
        rw [hx] at hq'
        have := h.edges (u, x) (find_some_mem hx) q (find_some_mem hq')
        rw [← hu]
        simp only [List.mem_append]; left; exact this
    · simp only [List.mem_append]; left
      exact h.edges p (find_some_mem this) q hq
  · intro u' v' a' hmem
    have hget : ∀ k x, find (groupEdge d (u, v, a)) k = some x → (k, x) ∈ groupEdge d (u, v, a) := fun k x hx => find_some_mem hx
    by_cases hu : u = u'
    · subst hu
      refine ⟨(u, put ((find d u).getD []) v a), hget _ _ (by rw [hf, if_pos rfl]), rfl, ?_⟩
      have hv : v' ∈ keys (put ((find d u).getD []) v a) := by
        rw [mem_keys_put]
        rw [List.mem_append] at hmem
        rcases hmem with hmem | hmem
        · left
          obtain ⟨p, hp, rfl, q, hq, rfl⟩ := h.all _ _ _ hmem
          rw [mem_find nk (k := p.1) (v := p.2) hp]
          exact List.mem_map_of_mem (f := Prod.fst) hq
        · right; simp at hmem; exact hmem.1
      obtain ⟨x, hx⟩ := (mem_keys_iff _ _).1 hv
      exact ⟨(v', x), find_some_mem hx, rfl⟩
    · rw [List.mem_append] at hmem
      rcases hmem with hmem | hmem
      · obtain ⟨p, hp, rfl, q, hq, rfl⟩ := h.all _ _ _ hmem
        refine ⟨p, hget p.1 p.2 ?_, rfl, q, hq, rfl⟩
        rw [hf, if_neg hu]; exact mem_find nk hp
      · simp at hmem; exact absurd hmem.1.symm hu

theorem grouped_fold_from (es : List (NodeId × NodeId × Attrs)) : ∀ {d : Dict NodeId (Dict NodeId Attrs)} {done : List (NodeId × NodeId × Attrs)},
    Grouped (fun u v a => (u, v, a) ∈ done) d → Grouped (fun u v a => (u, v, a) ∈ done ++ es) (es.foldl groupEdge d) := by
  induction es with
  | nil => intro d done h; simpa using h
  | cons e es ih =>
    intro d done h
    have := ih (grouped_step h e)
    simpa using this

/-- grouping a list of edges -/
theorem grouped_fold {E : NodeId → NodeId → Attrs → Prop} {es : List (NodeId × NodeId × Attrs)} (hE : ∀ u v a, E u v a ↔ (u, v, a) ∈ es) :
    Grouped E (es.foldl groupEdge []) := by
  have := grouped_fold_from es (d := []) (done := []) ⟨by simp, by simp, by simp, by simp⟩
  have he : E = fun u v a => (u, v, a) ∈ es := by funext u v a; exact propext (hE u v a)
  rw [he]; simpa using this

/-! ### features -/

theorem paulaFeats_ok {wanted : String → Bool} {a : Attrs} (nd : (keys a).Nodup) (hs : ∀ k v, find a k = some v → wanted k = true → ∃ s, v = .atom (.str s)) :
    ∃ fs, paulaFeats wanted a = .ok fs ∧ FeatsOf (fun k => wanted k = true) a fs := by
  unfold paulaFeats
  obtain ⟨fs, hfs⟩ := DG.mapE_total (f := fun kv : String × Val => (do let v ← lxmlValue kv.2; .ok (kv.1, v) : Except PyErr (String × String))) (xs := a.filter (fun kv => wanted kv.1)) (by
    intro kv hkv
    rw [List.mem_filter] at hkv
    obtain ⟨s, hv⟩ := hs kv.1 kv.2 (mem_find nd hkv.1) hkv.2
    exact ⟨(kv.1, s), by rw [hv]; rfl⟩)
  refine ⟨fs, hfs, ?_⟩
  have hf := DG.mapE_ok.1 hfs
  have hR : List.Forall₂ (fun (kv : String × Val) (y : String × String) => kv.1 = y.1 ∧ kv.2 = .atom (.str y.2)) (a.filter (fun kv => wanted kv.1)) fs := by
    refine hf.imp ?_
    rintro ⟨k, v⟩ y hy
    have hsome : ∀ x, lxmlValue v = .ok x → v = .atom (.str x) := by
      intro x hx
      unfold lxmlValue at hx
      split at hx <;> first | (injection hx with hx; subst hx; rfl) | cases hx
    cases hl : lxmlValue v with
    | error e => simp only [hl, bind, Except.bind] at hy; cases hy
    | ok x =>
      simp only [hl, bind, Except.bind] at hy
      cases hy
      exact ⟨rfl, hsome x hl⟩
  have hkeys : fs.map Prod.fst = (a.filter (fun kv => wanted kv.1)).map Prod.fst := by
    clear hf hfs
    generalize a.filter (fun kv => wanted kv.1) = l at hR ⊢
    induction hR with
    | nil => rfl
    | cons h1 _ ih => simp [ih, h1.1]
  refine ⟨?_, ?_⟩
  · rw [hkeys]
    exact nd.sublist (List.Sublist.map _ List.filter_sublist)
  · intro k v
    constructor
    · intro hm
      obtain ⟨kv, hkv, h1, h2⟩ := forall₂_mem_right hR hm
      rw [List.mem_filter] at hkv
      simp only at h1 h2
      refine ⟨h1 ▸ hkv.2, ?_⟩
      have := mem_find nd (k := kv.1) (v := kv.2) hkv.1
      rw [h1, h2] at this; exact this
    · rintro ⟨hw, hfk⟩
      obtain ⟨y, hy, h1, h2⟩ := forall₂_mem_left hR (x := (k, .atom (.str v))) (by rw [List.mem_filter]; exact ⟨find_some_mem hfk, hw⟩)
      obtain ⟨y1, y2⟩ := y
      simp only at h1 h2
      injection h2 with h2; injection h2 with h2
      rw [h1, h2]; exact hy

namespace DG

/-! ### edges -/

theorem paulaEdges_ok {g : DG} (hi : Inv g) (ht : g.Typed) (layer typ : String) (hp : plain layer = true) (hpt : plain typ = true) :
    ∃ es, g.paulaEdges layer typ = .ok es ∧ ∀ u v a, g.TypedEdge layer typ u v a ↔ (u, v, a) ∈ es := by
  obtain ⟨es, h1, _, _, h4⟩ := selectEdgesBy_exact hi (some layer) (some typ) (by
    intro s hs
    rcases hs with hs | hs <;> (injection hs with hs; subst hs; assumption)) (fun _ => ht)
  refine ⟨es.map (fun e => (e.1, e.2.1, e.2.2.2)), by unfold paulaEdges genAll; rw [h1]; rfl, ?_⟩
  intro u v a
  constructor
  · rintro ⟨k, ha, hl, hty⟩
    exact List.mem_map.2 ⟨(u, v, k, a), (h4 u v k a).2 ⟨ha, by rintro l ⟨⟩; exact hl, by rintro t ⟨⟩; exact hty⟩, rfl⟩
  · intro hm
    obtain ⟨⟨u', v', k, a'⟩, he, heq⟩ := List.mem_map.1 hm
    simp only [Prod.mk.injEq] at heq
    obtain ⟨rfl, rfl, rfl⟩ := heq
    obtain ⟨ha, hl, hty⟩ := (h4 _ _ _ _).1 he
    exact ⟨k, ha, hl _ rfl, hty _ rfl⟩

theorem istoken_iff {g : DG} {n : NodeId} (h : g.HasNode n) : ∃ b, g.istoken n none = .ok b ∧ (b = true ↔ g.IsToken n) := by
  obtain ⟨a, ha⟩ := (hasNode_some g n).1 h
  refine ⟨_, istoken_eq ha, ?_⟩
  unfold IsToken qual
  rw [Option.isSome_iff_exists]

end DG
end Dg
