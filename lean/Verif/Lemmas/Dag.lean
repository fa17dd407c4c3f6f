import Verif.Model.Urml
import Verif.Spec.Dag
import Verif.Lemmas.Chains
import Verif.Lemmas.GraphInv
import Verif.Lemmas.Forall2
import Verif.Lemmas.Rst
import Mathlib.Data.List.Perm.Subperm

/-! `dag_longest_path`. -/

namespace Dg
open Dict
namespace DG

theorem mapE_error {α β : Type} {f : α → Except PyErr β} {xs : List α} {e : PyErr} (h : mapE f xs = .error e) : ∃ x ∈ xs, f x = .error e := by
  induction xs with
  | nil => cases h
  | cons x xs ih =>
    unfold mapE at h
    cases hx : f x with
    | error e' =>
      rw [hx] at h
      cases h
      exact ⟨x, by simp, hx⟩
    | ok y =>
      rw [hx] at h
      cases hm : mapE f xs with
      | error e' =>
        rw [hm] at h
        cases h
        obtain ⟨z, hz, e⟩ := ih hm
        exact ⟨z, by simp [hz], e⟩
      | ok ys => rw [hm] at h; cases h

theorem arc_iff {g : DG} (wf : WF g) (u v : NodeId) : g.Arc u v ↔ ∃ kd, g.kd? u v = some kd := by
  unfold Arc edgeCount
  constructor
  · intro h
    cases hk : g.kd? u v with
    | none => rw [hk] at h; simp at h
    | some kd => exact ⟨kd, rfl⟩
  · rintro ⟨kd, hk⟩
    rw [hk]
    exact List.length_pos_iff.2 (wf.kdNonempty _ _ _ hk)

theorem mem_preds {g : DG} (wf : WF g) (u v : NodeId) : u ∈ g.preds v ↔ g.Arc u v := by
  have nd : (keys g.adj).Nodup := by rw [wf.adjKeys]; exact wf.nodesNodup
  rw [arc_iff wf]
  unfold preds kd?
  rw [List.mem_map]
  constructor
  · rintro ⟨p, hp, rfl⟩
    obtain ⟨hp, hh⟩ := List.mem_filter.1 hp
    rw [mem_find nd (show (p.1, p.2) ∈ g.adj from hp)]
    exact (mem_keys_iff _ _).1 ((has_iff _ _).1 hh)
  · rintro ⟨kd, hk⟩
    cases hf : find g.adj u with
    | none => rw [hf] at hk; cases hk
    | some nb =>
      rw [hf] at hk
      exact ⟨(u, nb), List.mem_filter.2 ⟨find_some_mem hf, (has_iff _ _).2 ((mem_keys_iff _ _).2 ⟨kd, hk⟩)⟩, rfl⟩

theorem arc_nodes {g : DG} (wf : WF g) {u v : NodeId} (h : g.Arc u v) : g.HasNode u ∧ g.HasNode v := by
  obtain ⟨kd, hk⟩ := (arc_iff wf u v).1 h
  exact ⟨kd?_source wf hk, wf.target _ _ _ hk⟩

/-! ### paths -/

theorem Steps.snoc {g : DG} {k : Nat} {u v w : NodeId} (h : Steps g k u v) (a : g.Arc v w) : Steps g (k + 1) u w := by
  induction h with
  | refl => exact .step a (.refl _)
  | step b _ ih => exact .step b (ih a)

theorem Steps.last {g : DG} {k : Nat} {u w : NodeId} (h : Steps g (k + 1) u w) : ∃ v, Steps g k u v ∧ g.Arc v w := by
  induction k generalizing u with
  | zero =>
    cases h with
    | step a h => cases h; exact ⟨u, .refl _, a⟩
  | succ k ih =>
    cases h with
    | step a h =>
      obtain ⟨v, hv, b⟩ := ih h
      exact ⟨v, .step a hv, b⟩

theorem Steps.transGen {g : DG} {k : Nat} {u v : NodeId} (h : Steps g (k + 1) u v) : Relation.TransGen g.Arc u v := by
  induction k generalizing u with
  | zero => cases h with | step a h => cases h; exact .single a
  | succ k ih => cases h with | step a h => exact .head a (ih h)

theorem Steps.nodes {g : DG} (ha : Acyclic g.Arc) {k : Nat} {u v : NodeId} (h : Steps g k u v) : ∃ l : List NodeId, l.length = k + 1 ∧ l.Nodup ∧ ∀ x ∈ l, x = u ∨ Relation.TransGen g.Arc u x := by
  induction h with
  | refl u => exact ⟨[u], rfl, by simp, by simp⟩
  | step a _ ih =>
    rename_i u v w _
    obtain ⟨l, h1, h2, h3⟩ := ih
    have hu : ∀ x ∈ l, Relation.TransGen g.Arc u x := by
      intro x hx
      rcases h3 x hx with rfl | h
      · exact .single a
      · exact .head a h
    refine ⟨u :: l, by simp [h1], List.nodup_cons.2 ⟨fun hm => ha u (hu u hm), h2⟩, ?_⟩
    intro x hx
    rcases List.mem_cons.1 hx with rfl | hx
    · exact .inl rfl
    · exact .inr (hu x hx)

theorem transGen_node {g : DG} (wf : WF g) {u v : NodeId} (h : Relation.TransGen g.Arc u v) : g.HasNode u ∧ g.HasNode v := by
  induction h with
  | single a => exact arc_nodes wf a
  | tail _ a ih => exact ⟨ih.1, (arc_nodes wf a).2⟩

/-- a path of a graph without cycles has at most as many nodes as the graph -/
theorem Steps.bound {g : DG} (wf : WF g) (ha : Acyclic g.Arc) {k : Nat} {u v : NodeId} (h : Steps g k u v) (hu : g.HasNode u) : k + 1 ≤ g.nodes.length := by
  obtain ⟨l, h1, h2, h3⟩ := h.nodes ha
  have hs : l ⊆ keys g.nodes := by
    intro x hx
    rcases h3 x hx with rfl | h
    · exact hu
    · exact (transGen_node wf h).2
  have := (List.subperm_of_subset h2 hs).length_le
  rw [h1] at this
  simpa [keys] using this

theorem steps_of_cycle {g : DG} {n : NodeId} (h : Relation.TransGen g.Arc n n) (k : Nat) : ∃ u, Steps g k u n := by
  have key : ∀ u, Relation.ReflTransGen g.Arc n u → ∃ u', g.Arc u' u ∧ Relation.ReflTransGen g.Arc n u' := by
    intro u hu
    rcases Relation.ReflTransGen.cases_tail hu with rfl | ⟨w, hw, a⟩
    · obtain ⟨w, hw, a⟩ := Relation.TransGen.tail'_iff.1 h
      exact ⟨w, a, hw⟩
    · exact ⟨w, a, hw⟩
  have : ∃ u, Steps g k u n ∧ Relation.ReflTransGen g.Arc n u := by
    induction k with
    | zero => exact ⟨n, .refl _, .refl⟩
    | succ k ih =>
      obtain ⟨u, h1, h2⟩ := ih
      obtain ⟨u', a, h3⟩ := key u h2
      exact ⟨u', .step a h1, h3⟩
  obtain ⟨u, hu, _⟩ := this
  exact ⟨u, hu⟩

/-! ### the distances -/

theorem pairMax_fold (d : Nat × NodeId) (ds : List (Nat × NodeId)) : ds.foldl pairMax d ∈ d :: ds ∧ ∀ e ∈ d :: ds, e.1 ≤ (ds.foldl pairMax d).1 := by
  induction ds generalizing d with
  | nil => simp
  | cons x xs ih =>
    rw [List.foldl_cons]
    obtain ⟨h1, h2⟩ := ih (pairMax d x)
    have h3 : pairMax d x = d ∨ pairMax d x = x := by
      unfold pairMax
      split
      · exact .inr rfl
      · exact .inl rfl
    have h4 : d.1 ≤ (pairMax d x).1 ∧ x.1 ≤ (pairMax d x).1 := by
      unfold pairMax
      split
      · rename_i h; constructor <;> omega
      · rename_i h
        simp only [not_or, not_and] at h
        constructor <;> omega
    refine ⟨?_, ?_⟩
    · rcases List.mem_cons.1 h1 with h1 | h1
      · rw [h1]; rcases h3 with h3 | h3 <;> rw [h3] <;> simp
      · simp [h1]
    · intro e he
      have h5 := h2 _ (List.mem_cons_self ..)
      rcases List.mem_cons.1 he with rfl | he
      · omega
      · rcases List.mem_cons.1 he with rfl | he
        · omega
        · exact h2 e (by simp [he])

theorem distMax_fold (d : NodeId × (Nat × NodeId)) (ds : List (NodeId × (Nat × NodeId))) : ds.foldl distMax d ∈ d :: ds ∧ ∀ e ∈ d :: ds, e.2.1 ≤ (ds.foldl distMax d).2.1 := by
  induction ds generalizing d with
  | nil => simp
  | cons x xs ih =>
    rw [List.foldl_cons]
    obtain ⟨h1, h2⟩ := ih (distMax d x)
    have h3 : distMax d x = d ∨ distMax d x = x := by
      unfold distMax
      split
      · exact .inr rfl
      · exact .inl rfl
    have h4 : d.2.1 ≤ (distMax d x).2.1 ∧ x.2.1 ≤ (distMax d x).2.1 := by
      unfold distMax
      split
      · rename_i h; constructor <;> omega
      · rename_i h
        simp only [not_or, not_and] at h
        constructor <;> omega
    refine ⟨?_, ?_⟩
    · rcases List.mem_cons.1 h1 with h1 | h1
      · rw [h1]; rcases h3 with h3 | h3 <;> rw [h3] <;> simp
      · simp [h1]
    · intro e he
      have h5 := h2 _ (List.mem_cons_self ..)
      rcases List.mem_cons.1 he with rfl | he
      · omega
      · rcases List.mem_cons.1 he with rfl | he
        · omega
        · exact h2 e (by simp [he])

/-- one step of the recursion -/
theorem dagDist_succ {g : DG} (wf : WF g) {fuel : Nat} {n : NodeId} {d : Nat × NodeId} (h : g.dagDist (fuel + 1) n = .ok d) :
    (∀ v, g.Arc v n → ∃ e, g.dagDist fuel v = .ok e ∧ e.1 + 1 ≤ d.1) ∧ ((d = (0, n) ∧ ∀ v, ¬ g.Arc v n) ∨ ∃ e, g.Arc d.2 n ∧ g.dagDist fuel d.2 = .ok e ∧ d.1 = e.1 + 1) := by
  unfold dagDist at h
  cases hm : mapE (fun v => do let d ← g.dagDist fuel v; return (d.1 + 1, v)) (g.preds n) with
  | error e => rw [hm] at h; cases h
  | ok ds =>
    rw [hm] at h
    simp only [except_bind_ok] at h
    rw [mapE_ok] at hm
    have hf : ∀ v y, ((do let d ← g.dagDist fuel v; return (d.1 + 1, v)) : Except PyErr (Nat × NodeId)) = .ok y → ∃ e, g.dagDist fuel v = .ok e ∧ y = (e.1 + 1, v) := by
      intro v y hy
      cases hd : g.dagDist fuel v with
      | error e => rw [hd] at hy; cases hy
      | ok e => rw [hd] at hy; exact ⟨e, rfl, (Except.ok.inj hy).symm⟩
    have hl : ∀ v ∈ g.preds n, ∃ y ∈ ds, ∃ e, g.dagDist fuel v = .ok e ∧ y = (e.1 + 1, v) := by
      intro v hv
      obtain ⟨y, hy, r⟩ := forall₂_mem_left hm hv
      exact ⟨y, hy, hf _ _ r⟩
    have hr : ∀ y ∈ ds, ∃ v ∈ g.preds n, ∃ e, g.dagDist fuel v = .ok e ∧ y = (e.1 + 1, v) := by
      intro y hy
      obtain ⟨v, hv, r⟩ := forall₂_mem_right hm hy
      exact ⟨v, hv, hf _ _ r⟩
    cases ds with
    | nil =>
      obtain rfl := Except.ok.inj h
      have hno : ∀ v, ¬ g.Arc v n := by
        intro v hv
        obtain ⟨y, hy, _⟩ := hl v ((mem_preds wf v n).2 hv)
        cases hy
      exact ⟨fun v hv => (hno v hv).elim, .inl ⟨rfl, hno⟩⟩
    | cons x xs =>
      obtain rfl := Except.ok.inj h
      obtain ⟨h1, h2⟩ := pairMax_fold x xs
      refine ⟨?_, .inr ?_⟩
      · intro v hv
        obtain ⟨y, hy, e, he, rfl⟩ := hl v ((mem_preds wf v n).2 hv)
        exact ⟨e, he, h2 _ hy⟩
      · obtain ⟨v, hv, e, he, heq⟩ := hr _ h1
        rw [heq]
        exact ⟨e, (mem_preds wf v n).1 hv, he, rfl⟩

/-- `dist[n]` is the greatest length of a path to `n` -/
theorem dagDist_bound {g : DG} (wf : WF g) : ∀ {fuel : Nat} {n : NodeId} {d : Nat × NodeId}, g.dagDist fuel n = .ok d → ∀ {k u}, Steps g k u n → k ≤ d.1
  | 0, _, _, h, _, _, _ => by cases h
  | fuel + 1, n, d, h, 0, u, _ => Nat.zero_le _
  | fuel + 1, n, d, h, k + 1, u, hs => by
    obtain ⟨v, h1, h2⟩ := hs.last
    obtain ⟨e, he, hle⟩ := (dagDist_succ wf h).1 v h2
    have := dagDist_bound wf he h1
    omega

/-- if there is not enough fuel, there is a long path -/
theorem dagDist_error {g : DG} (wf : WF g) : ∀ {fuel : Nat} {n : NodeId} {e : PyErr}, g.dagDist fuel n = .error e → e = .unfeasible ∧ ∃ u, Steps g fuel u n
  | 0, n, e, h => by cases h; exact ⟨rfl, n, .refl _⟩
  | fuel + 1, n, e, h => by
    unfold dagDist at h
    cases hm : mapE (fun v => do let d ← g.dagDist fuel v; return (d.1 + 1, v)) (g.preds n) with
    | ok ds => rw [hm] at h; simp only [except_bind_ok] at h; cases ds <;> cases h
    | error e' =>
      rw [hm] at h
      cases h
      obtain ⟨v, hv, hd⟩ := mapE_error hm
      cases hdv : g.dagDist fuel v with
      | ok d => rw [hdv] at hd; cases hd
      | error e'' =>
        rw [hdv] at hd
        cases hd
        obtain ⟨h1, u, h2⟩ := dagDist_error wf hdv
        exact ⟨h1, u, h2.snoc ((mem_preds wf v n).1 hv)⟩

theorem dagDist_mono {g : DG} (wf : WF g) : ∀ {fuel : Nat} {n : NodeId} {d : Nat × NodeId}, g.dagDist fuel n = .ok d → g.dagDist (fuel + 1) n = .ok d
  | 0, _, _, h => by cases h
  | fuel + 1, n, d, h => by
    have hall := (dagDist_succ wf h).1
    rw [← h]
    conv_lhs => unfold dagDist
    conv_rhs => unfold dagDist
    have : mapE (fun v => do let d ← g.dagDist (fuel + 1) v; return (d.1 + 1, v)) (g.preds n) = mapE (fun v => do let d ← g.dagDist fuel v; return (d.1 + 1, v)) (g.preds n) := by
      have hp : ∀ v ∈ g.preds n, g.Arc v n := fun v hv => (mem_preds wf v n).1 hv
      generalize g.preds n = ps at hp
      induction ps with
      | nil => rfl
      | cons v vs ih =>
        unfold mapE
        obtain ⟨e, he, _⟩ := hall v (hp v (by simp))
        have := dagDist_mono wf he
        rw [ih (fun v hv => hp v (by simp [hv]))]
        simp only [this, he]
    rw [this]

theorem dagBack_ok {g : DG} (wf : WF g) {depth : Nat} : ∀ {k : Nat} {n w : NodeId}, g.dagDist depth n = .ok (k, w) → ∃ p r, g.dagBack depth k n = .ok (p ++ [r]) ∧ List.IsChain (fun a b => g.Arc b a) (p ++ [r]) ∧ (p ++ [r]).head? = some n ∧ p.length = k ∧ Steps g k r n
  | 0, n, w, _ => ⟨[], n, rfl, by simp, rfl, rfl, .refl _⟩
  | k + 1, n, w, h => by
    cases depth with
    | zero => cases h
    | succ depth =>
      obtain ⟨_, h2⟩ := dagDist_succ wf h
      rcases h2 with ⟨h2, _⟩ | ⟨e, ha, he, hk⟩
      · cases h2
      · obtain ⟨e1, e2⟩ := e
        simp only [Nat.add_right_cancel_iff] at hk ha he
        subst hk
        obtain ⟨p, r, hb, hc, hh, hl, hs⟩ := dagBack_ok wf (dagDist_mono wf he)
        refine ⟨n :: p, r, ?_, ?_, rfl, by simp [hl], hs.snoc ha⟩
        · unfold dagBack
          rw [h]
          simp only [except_bind_ok]
          rw [hb]
          rfl
        · rw [List.cons_append]
          cases hpr : p ++ [r] with
          | nil => simp at hpr
          | cons x xs =>
            rw [hpr] at hc hh
            obtain rfl := Option.some.inj hh
            exact List.IsChain.cons_cons ha hc

/-- `dag_longest_path`: NetworkXUnfeasible if there is a cycle; otherwise nothing, if there are no edges, or a path; no path is longer, and nothing leads to its first node -/
theorem dagLongestPath_spec {g : DG} (wf : WF g) (hne : g.nodes ≠ []) :
    (¬ Acyclic g.Arc → g.dagLongestPath = .error .unfeasible) ∧
    (Acyclic g.Arc → (∀ u v, ¬ g.Arc u v) → g.dagLongestPath = .ok []) ∧
    (Acyclic g.Arc → (∃ u v, g.Arc u v) → ∃ r p, g.dagLongestPath = .ok (r :: p) ∧ List.IsChain g.Arc (r :: p) ∧ p ≠ [] ∧ ∀ k u v, Steps g k u v → k ≤ p.length) := by
  have herr : ∀ e, mapE (fun n => do let d ← g.dagDist g.nodes.length n; return (n, d)) (keys g.nodes) = .error e → e = .unfeasible ∧ ¬ Acyclic g.Arc := by
    intro e h
    obtain ⟨n, hn, hd⟩ := mapE_error h
    cases hdn : g.dagDist g.nodes.length n with
    | ok d => rw [hdn] at hd; cases hd
    | error e' =>
      rw [hdn] at hd
      cases hd
      obtain ⟨h1, u, h2⟩ := dagDist_error wf hdn
      refine ⟨h1, fun ha => ?_⟩
      have hu : g.HasNode u := by
        cases hl : g.nodes.length with
        | zero => exact absurd (List.length_eq_zero_iff.1 hl) hne
        | succ k => rw [hl] at h2; exact (transGen_node wf h2.transGen).1
      have := h2.bound wf ha hu
      omega
  cases hm : mapE (fun n => do let d ← g.dagDist g.nodes.length n; return (n, d)) (keys g.nodes) with
  | error e =>
    obtain ⟨rfl, hna⟩ := herr e hm
    refine ⟨fun _ => ?_, fun ha => (hna ha).elim, fun ha => (hna ha).elim⟩
    unfold dagLongestPath
    simp only [hm]
    rfl
  | ok ds =>
    have hm' := mapE_ok.1 hm
    have hf : ∀ v y, ((do let d ← g.dagDist g.nodes.length v; return (v, d)) : Except PyErr (NodeId × (Nat × NodeId))) = .ok y → g.dagDist g.nodes.length v = .ok y.2 ∧ y.1 = v := by
      intro v y hy
      cases hd : g.dagDist g.nodes.length v with
      | error e => rw [hd] at hy; cases hy
      | ok e => rw [hd] at hy; obtain rfl := Except.ok.inj hy; exact ⟨rfl, rfl⟩
    have hl : ∀ v ∈ keys g.nodes, ∃ y ∈ ds, g.dagDist g.nodes.length v = .ok y.2 ∧ y.1 = v := by
      intro v hv
      obtain ⟨y, hy, r⟩ := forall₂_mem_left hm' hv
      exact ⟨y, hy, hf _ _ r⟩
    have hr : ∀ y ∈ ds, g.dagDist g.nodes.length y.1 = .ok y.2 := by
      intro y hy
      obtain ⟨v, hv, r⟩ := forall₂_mem_right hm' hy
      obtain ⟨h2, h3⟩ := hf _ _ r
      rw [h3]; exact h2
    have hbound : ∀ k u v, Steps g (k + 1) u v → ∃ y ∈ ds, k + 1 ≤ y.2.1 := by
      intro k u v hs
      obtain ⟨y, hy, h1, _⟩ := hl v (transGen_node wf hs.transGen).2
      exact ⟨y, hy, dagDist_bound wf h1 hs⟩
    have hac : Acyclic g.Arc := by
      intro n hn
      obtain ⟨y, hy, h1, _⟩ := hl n (transGen_node wf hn).2
      obtain ⟨u, hu⟩ := steps_of_cycle hn (y.2.1 + 1)
      have := dagDist_bound wf h1 hu
      omega
    refine ⟨fun h => (h hac).elim, fun _ hno => ?_, fun _ hex => ?_⟩
    · unfold dagLongestPath
      simp only [hm, except_bind_ok]
      cases ds with
      | nil =>
        cases hg : g.nodes with
        | nil => exact absurd hg hne
        | cons x xs =>
          obtain ⟨y, hy, _⟩ := hl x.1 (by rw [hg]; simp [keys])
          cases hy
      | cons d ds =>
        have hb := hr _ (distMax_fold d ds).1
        have h0 : (ds.foldl distMax d).2.1 = 0 := by
          cases hk : (ds.foldl distMax d).2.1 with
          | zero => rfl
          | succ k =>
            obtain ⟨p, r, _, _, _, _, hs⟩ := dagBack_ok wf (k := k + 1) (w := (ds.foldl distMax d).2.2) (by rw [hb, ← hk])
            cases hs with
            | step a _ => exact (hno _ _ a).elim
        dsimp only
        rw [if_pos h0]
        rfl
    · obtain ⟨u, v, huv⟩ := hex
      unfold dagLongestPath
      simp only [hm, except_bind_ok]
      cases ds with
      | nil => obtain ⟨y, hy, _⟩ := hbound 0 u v (.step huv (.refl _)); cases hy
      | cons d ds =>
        obtain ⟨hmem, hmax⟩ := distMax_fold d ds
        have hb := hr _ hmem
        have hpos : (ds.foldl distMax d).2.1 ≠ 0 := by
          obtain ⟨y, hy, hle⟩ := hbound 0 u v (.step huv (.refl _))
          have := hmax y hy
          omega
        obtain ⟨p, r, h1, h2, _, h4, hs⟩ := dagBack_ok wf (k := (ds.foldl distMax d).2.1) (w := (ds.foldl distMax d).2.2) hb
        refine ⟨r, p.reverse, ?_, ?_, ?_, ?_⟩
        · dsimp only
          rw [if_neg hpos, h1]
          simp only [except_bind_ok]
          rw [List.reverse_append]
          rfl
        · have : r :: p.reverse = (p ++ [r]).reverse := by simp
          rw [this, List.isChain_reverse]
          exact h2
        · intro hp
          have : p.length = 0 := by rw [← List.length_reverse, hp]; rfl
          omega
        · intro k a b hk
          rw [List.length_reverse, h4]
          cases k with
          | zero => exact Nat.zero_le _
          | succ k =>
            obtain ⟨y, hy, hle⟩ := hbound k a b hk
            exact Nat.le_trans hle (hmax y hy)

end DG
end Dg
