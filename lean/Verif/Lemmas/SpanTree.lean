import Verif.Lemmas.Span

namespace Dg
open Dict
namespace DG

/-- every node has at most one incoming non-pointing edge (self-loops not counted) -/
def UniqueSpanParent (g : DG) : Prop :=
  ∀ v u k a u' k' a', g.edgeAttrs u v k = some a → followed (u, v, k, a) → g.edgeAttrs u' v k' = some a' → followed (u', v, k', a') →
    u = u' ∧ k = k'

/-- below `r`, every node has at most one incoming non-pointing edge: no two paths of non-pointing edges from `r` lead to the same node -/
def SpanTreeBelow (g : DG) (r : NodeId) : Prop :=
  ∀ v u k a u' k' a', g.Spans r u → g.Spans r u' → g.edgeAttrs u v k = some a → followed (u, v, k, a) → g.edgeAttrs u' v k' = some a' → followed (u', v, k', a') →
    u = u' ∧ k = k'

theorem UniqueSpanParent.spanTreeBelow {g : DG} (h : g.UniqueSpanParent) (r : NodeId) : g.SpanTreeBelow r :=
  fun v u k a u' k' a' _ _ => h v u k a u' k' a'

theorem SpanTreeBelow.sub {g : DG} {r n : NodeId} (h : g.SpanTreeBelow r) (hn : g.Spans r n) : g.SpanTreeBelow n :=
  fun v u k a u' k' a' h1 h2 => h v u k a u' k' a' (hn.trans h1) (hn.trans h2)

theorem Spans.snoc {g : DG} {u v w : NodeId} (h : g.Spans u v) (e : g.SpanEdge v w) : g.Spans u w := h.trans (.step e (.refl _))

theorem Spans.cases_last {g : DG} {u w : NodeId} (h : g.Spans u w) : u = w ∨ ∃ v, g.Spans u v ∧ g.SpanEdge v w := by
  induction h with
  | refl => exact Or.inl rfl
  | step e _ ih =>
    rcases ih with rfl | ⟨x, h1, h2⟩
    · exact Or.inr ⟨_, .refl _, e⟩
    · exact Or.inr ⟨x, .step e h1, h2⟩

theorem SpanTreeBelow.spanEdge {g : DG} {r : NodeId} (h : g.SpanTreeBelow r) {u u' v : NodeId} (hu : g.Spans r u) (hu' : g.Spans r u') (h1 : g.SpanEdge u v) (h2 : g.SpanEdge u' v) : u = u' := by
  obtain ⟨n1, k1, a1, x1, e1, f1, p1⟩ := h1
  obtain ⟨n2, k2, a2, x2, e2, f2, p2⟩ := h2
  exact (h v u k1 a1 u' k2 a2 hu hu' e1 ⟨n1, x1, f1, p1⟩ e2 ⟨n2, x2, f2, p2⟩).1

/-- two ancestors of a node in a forest are comparable -/
theorem spans_comparable {g : DG} {r : NodeId} (hu : g.SpanTreeBelow r) {u w : NodeId} (h : g.Spans u w) : g.Spans r u → ∀ v, g.Spans r v → g.Spans v w → g.Spans u v ∨ g.Spans v u := by
  induction h with
  | refl u => intro _ v _ hv; exact Or.inr hv
  | @step u x w e hxw ih =>
    intro hru v hrv hv
    rcases ih (hru.snoc e) v hrv hv with h1 | h1
    · exact Or.inl (.step e h1)
    · rcases h1.cases_last with rfl | ⟨y, hy, hyx⟩
      · exact Or.inl (.step e (.refl _))
      · rw [← hu.spanEdge hru (hrv.trans hy) e hyx] at hy
        exact Or.inr hy

theorem pySorted_nodup {α : Type} {le : α → α → Bool} {xs : List α} : (pySorted le xs).Nodup ↔ xs.Nodup := (pySorted_perm xs).nodup_iff

theorem getSpan_nodup_below {g : DG} (wf : WF g) (hac : g.SpanAcyclic) (fuel : Nat) :
    ∀ (n : NodeId) (span : List NodeId), g.SpanTreeBelow n → g.getSpan fuel n = .ok span → span.Nodup := by
  induction fuel with
  | zero => intro n span _ h; simp [getSpan] at h
  | succ fuel ih =>
    intro n span hu h
    obtain ⟨f, a, rest, hf, ha, hs, rfl⟩ := getSpan_succ h
    obtain rfl : fuel = f := by omega
    obtain ⟨yss, h2, rfl⟩ := spanLoop_ok hs
    rw [naturalSorted, pySorted_nodup]
    have hsub : ∀ e ∈ (g.outEdges n).filter (fun e => decide (followed e)), g.SpanEdge n e.2.1 := by
      intro e he
      obtain ⟨he1, he2⟩ := List.mem_filter.1 he
      exact (followed_iff_spanEdge wf _ _).2 ⟨e, he1, of_decide_eq_true he2, rfl⟩
    rw [List.nodup_append]
    refine ⟨by split <;> simp, ?_, ?_⟩
    · -- spans of different children are disjoint
      have hnd : ((g.outEdges n).filter (fun e => decide (followed e))).Pairwise (fun e e' => e.2.1 ≠ e'.2.1) := by
        have h3 := outEdges_triple_nodup wf n
        rw [List.nodup_iff_pairwise_ne, List.pairwise_map] at h3
        have h4 := h3.sublist (List.filter_sublist (p := fun e => decide (followed e)))
        refine h4.imp_of_mem ?_
        rintro ⟨s, t, k, b⟩ ⟨s', t', k', b'⟩ he he' hne heq
        simp only at heq
        subst heq
        obtain ⟨m1, m2⟩ := List.mem_filter.1 he
        obtain ⟨m1', m2'⟩ := List.mem_filter.1 he'
        obtain ⟨rfl, e1⟩ := (mem_outEdges_iff wf _ _ _ _ _).1 m1
        obtain ⟨rfl, e2⟩ := (mem_outEdges_iff wf _ _ _ _ _).1 m1'
        have := hu t _ k b _ k' b' (.refl _) (.refl _) e1 (of_decide_eq_true m2) e2 (of_decide_eq_true m2')
        exact hne (by simp [Edge.triple, this.2])
      clear hs h
      revert hsub hnd h2
      generalize (g.outEdges n).filter (fun e => decide (followed e)) = es
      intro h2
      induction h2 with
      | nil => intros; simp
      | @cons e ys es yss hr hrest ihe =>
        intro hsub hnd
        rw [List.pairwise_cons] at hnd
        rw [List.flatten_cons, List.nodup_append]
        refine ⟨ih _ _ (hu.sub (.step (hsub e (by simp)) (.refl _))) hr, ihe (fun e he => hsub e (List.mem_cons_of_mem _ he)) hnd.2, ?_⟩
        intro x hx y hy hxy
        subst hxy
        obtain ⟨zs, hzs, hxz⟩ := List.mem_flatten.1 hy
        obtain ⟨e', he', hr'⟩ := forall₂_mem_right hrest hzs
        have s1 := ((getSpan_mem wf _ _ _ hr x).1 hx).2
        have s2 := ((getSpan_mem wf _ _ _ hr' x).1 hxz).2
        have d1 := hsub e (by simp)
        have d2 := hsub e' (List.mem_cons_of_mem _ he')
        have hne := hnd.1 e' he'
        rcases spans_comparable hu s1 (.step d1 (.refl _)) _ (.step d2 (.refl _)) s2 with h3 | h3
        · rcases h3.cases_last with h4 | ⟨p, hp, hpe⟩
          · exact hne h4
          · rw [← hu.spanEdge (.refl _) (.step d1 hp) d2 hpe] at hp
            exact hac _ _ d1 hp
        · rcases h3.cases_last with h4 | ⟨p, hp, hpe⟩
          · exact hne h4.symm
          · rw [← hu.spanEdge (.refl _) (.step d2 hp) d1 hpe] at hp
            exact hac _ _ d2 hp
    · intro x hx y hy hxy
      subst hxy
      have hxn : x = n := by
        split at hx
        · simpa using hx
        · simp at hx
      subst hxn
      obtain ⟨zs, hzs, hxz⟩ := List.mem_flatten.1 hy
      obtain ⟨e', he', hr'⟩ := forall₂_mem_right h2 hzs
      have s2 := ((getSpan_mem wf _ _ _ hr' x).1 hxz).2
      exact hac _ _ (hsub e' he') s2

theorem getSpan_nodup {g : DG} (wf : WF g) (hac : g.SpanAcyclic) (hu : g.UniqueSpanParent) (fuel : Nat) (n : NodeId) (span : List NodeId) (h : g.getSpan fuel n = .ok span) : span.Nodup :=
  getSpan_nodup_below wf hac fuel n span (hu.spanTreeBelow n) h

end DG
end Dg
