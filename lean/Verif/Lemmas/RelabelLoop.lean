import Verif.Lemmas.Relabel

namespace Dg
open Dict
namespace DG

theorem Renamed.refl (g : DG) : Renamed id g g :=
  ⟨fun _ _ _ _ h => h, fun _ a h => ⟨a, h, SameAttrs.refl a⟩, fun n h => ⟨n, h, rfl⟩, fun _ _ _ a h => ⟨a, h, SameAttrs.refl a⟩,
   fun u v _ h => ⟨u, v, h, rfl, rfl⟩, SameMeta.refl g⟩

theorem Renamed.hasNode {f : NodeId → NodeId} {g g' : DG} (h : Renamed f g g') {n : NodeId} (hn : g.HasNode n) : g'.HasNode (f n) := by
  obtain ⟨a, ha⟩ := hasNode_iff'.1 hn
  obtain ⟨a', ha', _⟩ := h.nodes n a ha
  exact hasNode_iff'.2 ⟨a', ha'⟩

theorem Renamed.comp {f h : NodeId → NodeId} {g g1 g2 : DG} (h1 : Renamed f g g1) (h2 : Renamed h g1 g2) :
    Renamed (fun n => h (f n)) g g2 := by
  refine ⟨?_, ?_, ?_, ?_, ?_, h1.rest.trans h2.rest⟩
  · intro n m hn hm heq
    exact h1.injective n m hn hm (h2.injective _ _ (h1.hasNode hn) (h1.hasNode hm) heq)
  · intro n a ha
    obtain ⟨a1, p1, q1⟩ := h1.nodes n a ha
    obtain ⟨a2, p2, q2⟩ := h2.nodes _ _ p1
    exact ⟨a2, p2, q1.trans q2⟩
  · intro n hn
    obtain ⟨n1, p1, rfl⟩ := h2.noOtherNodes n hn
    obtain ⟨n0, p0, rfl⟩ := h1.noOtherNodes n1 p1
    exact ⟨n0, p0, rfl⟩
  · intro u v k a ha
    obtain ⟨a1, p1, q1⟩ := h1.edges u v k a ha
    obtain ⟨a2, p2, q2⟩ := h2.edges _ _ _ _ p1
    exact ⟨a2, p2, q1.trans q2⟩
  · intro u v k hE
    obtain ⟨u1, v1, p1, rfl, rfl⟩ := h2.noOtherEdges u v k hE
    obtain ⟨u0, v0, p0, rfl, rfl⟩ := h1.noOtherEdges u1 v1 k p1
    exact ⟨u0, v0, p0, rfl, rfl⟩

theorem Renamed.congr {f f' : NodeId → NodeId} {g g' : DG} (wf : WF g) (h : Renamed f g g') (hf : ∀ n, g.HasNode n → f' n = f n) :
    Renamed f' g g' := by
  refine ⟨?_, ?_, ?_, ?_, ?_, h.rest⟩
  · intro n m hn hm heq
    rw [hf n hn, hf m hm] at heq
    exact h.injective n m hn hm heq
  · intro n a ha
    rw [hf n (hasNode_iff'.2 ⟨a, ha⟩)]
    exact h.nodes n a ha
  · intro n hn
    obtain ⟨n0, p0, rfl⟩ := h.noOtherNodes n hn
    exact ⟨n0, p0, hf n0 p0⟩
  · intro u v k a ha
    obtain ⟨p, q⟩ := edge_ends wf ha
    rw [hf u p, hf v q]
    exact h.edges u v k a ha
  · intro u v k hE
    obtain ⟨u0, v0, p0, rfl, rfl⟩ := h.noOtherEdges u v k hE
    obtain ⟨a, ha⟩ := Option.isSome_iff_exists.1 p0
    obtain ⟨p, q⟩ := edge_ends wf ha
    exact ⟨u0, v0, p0, hf u0 p, hf v0 q⟩

theorem split_unique {α : Type} {x : α} : ∀ {as bs as' bs' : List α}, x ∉ as → (as ++ x :: bs).Nodup → as ++ x :: bs = as' ++ x :: bs' → as = as' := by
  intro as
  induction as with
  | nil =>
    intro bs as' bs' _ nd h
    cases as' with
    | nil => rfl
    | cons p q =>
      simp only [List.nil_append, List.cons_append, List.cons.injEq] at h
      obtain ⟨rfl, h⟩ := h
      simp only [List.nil_append, List.nodup_cons] at nd
      exact absurd (by rw [h]; simp) nd.1
  | cons a as ih =>
    intro bs as' bs' hx nd h
    cases as' with
    | nil =>
      simp only [List.nil_append, List.cons_append, List.cons.injEq] at h
      exact absurd (by rw [h.1]; simp) hx
    | cons p q =>
      simp only [List.cons_append, List.cons.injEq] at h
      obtain ⟨rfl, h⟩ := h
      simp only [List.cons_append, List.nodup_cons] at nd
      rw [ih (fun h => hx (List.mem_cons_of_mem _ h)) nd.2 h]

/-- the renaming after the labels in `done` have been processed -/
def applyOn (m : Dict NodeId NodeId) (done : List NodeId) (n : NodeId) : NodeId := if n ∈ done then applyMap m n else n

theorem relabelLoop_spec {g : DG} (hi : Inv g) (m : Dict NodeId NodeId) (order : List NodeId) (nd : order.Nodup)
    (hin : ∀ o ∈ keys m, g.HasNode o)
    (hinj : ∀ o o' n, find m o = some n → find m o' = some n → o = o')
    (hnew : ∀ o n, find m o = some n → ¬ g.HasNode n ∨ (n ∈ keys m ∧ Before order n o))
    (hself : ∀ o n, find m o = some n → n.truthy = true ∨ ∀ k, ¬ g.HasEdge o o k) :
    ∀ rest done gc, order = done ++ rest → Inv gc → NodesLayeredNE gc → Renamed (applyOn m done) g gc →
      ∃ g', relabelLoop m gc rest = (g', none) ∧ Inv g' ∧ NodesLayeredNE g' ∧ Renamed (applyOn m order) g g' := by
  intro rest
  induction rest with
  | nil =>
    intro done gc ho h1 h2 h3
    simp at ho; subst ho
    exact ⟨gc, rfl, h1, h2, h3⟩
  | cons old rest ih =>
    intro done gc ho h1 h2 h3
    have hnotin : old ∉ done := by
      rw [ho] at nd
      rw [List.nodup_append] at nd
      intro h
      exact nd.2.2 old h old (by simp) rfl
    cases hf : find m old with
    | none =>
      obtain ⟨g', e1, e2, e3, e4⟩ := ih (done ++ [old]) gc (by rw [ho]; simp) h1 h2 (h3.congr hi.wf (by
        intro n _
        unfold applyOn
        by_cases hd : n ∈ done
        · simp [hd]
        · by_cases hn : n = old
          · subst hn; simp [hd, applyMap, hf]
          · simp [hd, hn]))
      refine ⟨g', ?_, e2, e3, e4⟩
      unfold relabelLoop; rw [hf]; exact e1
    | some new =>
      have hold : g.HasNode old := hin old ((mem_keys_iff _ _).2 ⟨new, hf⟩)
      have happ : applyOn m done old = old := by unfold applyOn; simp [hnotin]
      have hc1 : gc.HasNode old := by have := h3.hasNode hold; rwa [happ] at this
      have hc2 : ¬ gc.HasNode new := by
        intro hh
        obtain ⟨n, hn, heq⟩ := h3.noOtherNodes new hh
        have hcase : (n ∈ done ∧ find m n = some new) ∨ (n = new ∧ (n ∉ done ∨ n ∉ keys m)) := by
          unfold applyOn applyMap at heq
          by_cases hd : n ∈ done
          · rw [if_pos hd] at heq
            cases hfn : find m n with
            | none => rw [hfn] at heq; right; exact ⟨heq, Or.inr ((find_eq_none_iff _ _).1 hfn)⟩
            | some x => rw [hfn] at heq; left; exact ⟨hd, by simpa using heq⟩
          · rw [if_neg hd] at heq; right; exact ⟨heq, Or.inl hd⟩
        rcases hcase with ⟨hd, hfn⟩ | ⟨rfl, hnn⟩
        · have := hinj _ _ _ hfn hf; subst this; exact hnotin hd
        · rcases hnew _ _ hf with h | ⟨hk, pre, post, hb1, hb2⟩
          · exact h hn
          · have hpre : pre = done := by
              rw [ho] at hb1
              exact (split_unique hnotin (by rw [← ho]; exact nd) hb1).symm
            subst hpre
            rcases hnn with h | h
            · exact h hb2
            · exact h hk
      have hc3 : new.truthy = true ∨ ∀ k, ¬ gc.HasEdge old old k := by
        rcases hself _ _ hf with h | h
        · exact Or.inl h
        · right
          intro k hE
          obtain ⟨u, v, p, e1, e2⟩ := h3.noOtherEdges _ _ _ hE
          obtain ⟨a, ha⟩ := Option.isSome_iff_exists.1 p
          obtain ⟨q1, q2⟩ := edge_ends hi.wf ha
          have hu : u = old := h3.injective _ _ q1 hold (e1.trans happ.symm)
          have hv : v = old := h3.injective _ _ q2 hold (e2.trans happ.symm)
          subst hu; subst hv
          exact h k p
      obtain ⟨g1, e1, e2, e3, e4⟩ := relabelOne_spec h1 h2 hc1 hc2 hc3
      obtain ⟨g', f1, f2, f3, f4⟩ := ih (done ++ [old]) g1 (by rw [ho]; simp) e2 e3 ((h3.comp e4).congr hi.wf (by
        intro n hn
        by_cases hno : n = old
        · subst hno
          rw [happ]
          unfold applyOn rename1 applyMap
          simp [hf]
        · have hne : applyOn m done n ≠ old := by
            intro h
            exact hno (h3.injective _ _ hn hold (h.trans happ.symm))
          unfold rename1
          rw [if_neg hne]
          unfold applyOn
          simp [hno]))
      refine ⟨g', ?_, f2, f3, f4⟩
      unfold relabelLoop
      rw [hf]; simp only [e1]; exact f1

theorem applyOn_all {m : Dict NodeId NodeId} {order : List NodeId} (h : ∀ o ∈ keys m, o ∈ order) : applyOn m order = applyMap m := by
  funext n
  unfold applyOn
  split
  · rfl
  · rename_i hn
    unfold applyMap
    rw [(find_eq_none_iff _ _).2 (fun hk => hn (h n hk))]; rfl

end DG
end Dg
