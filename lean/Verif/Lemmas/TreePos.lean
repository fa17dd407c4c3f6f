import Verif.Spec.Tree
import Verif.Lemmas.Bfs
import Verif.Lemmas.Chains
import Verif.Lemmas.Relabel
import Verif.Lemmas.SpanTree
import Verif.Props.C08

/-! Positions of nodes (horizontal_positions) and sorted children. -/

namespace Dg
open Dict
namespace DG

theorem dominanceEdge_iff {g : DG} {u v : NodeId} {k : Key} :
    g.DominanceEdge u v k ↔ ∃ a, g.edgeAttrs u v k = some a ∧ find a "edge_type" = some (.atom (.str "dominates")) := by
  unfold DominanceEdge edgeAttr
  cases g.edgeAttrs u v k <;> simp

theorem dominatingSources_ok {es : List (NodeId × NodeId × Key × Attrs)} {ps : List NodeId} (h : dominatingSources es = .ok ps) :
    ps = (es.filter (fun e => decide (find e.2.2.2 "edge_type" = some (.atom (.str "dominates"))))).map (fun e => e.1) := by
  induction es generalizing ps with
  | nil => simp [dominatingSources] at h; simp [h]
  | cons e es ih =>
    rw [dominatingSources] at h
    cases hf : find e.2.2.2 "edge_type" with
    | none => rw [hf] at h; simp at h
    | some t =>
      rw [hf] at h
      simp only [bind, Except.bind] at h
      cases hd : dominatingSources es with
      | error e => rw [hd] at h; simp at h
      | ok rest =>
        rw [hd] at h
        simp only [Except.ok.injEq] at h
        rw [List.filter_cons, hf, ← h, ih hd]
        by_cases ht : t = .atom (.str "dominates")
        · simp [ht]
        · simp [ht]

theorem dominatingSources_total {es : List (NodeId × NodeId × Key × Attrs)} (h : ∀ e ∈ es, ∃ t, find e.2.2.2 "edge_type" = some t) :
    ∃ ps, dominatingSources es = .ok ps := by
  induction es with
  | nil => exact ⟨[], rfl⟩
  | cons e es ih =>
    obtain ⟨t, ht⟩ := h e (by simp)
    obtain ⟨ps, hp⟩ := ih (fun e he => h e (List.mem_cons_of_mem _ he))
    rw [dominatingSources, ht, hp]
    exact ⟨_, rfl⟩

theorem getParents_ok {g : DG} (wf : WF g) {n : NodeId} {ps : List NodeId} (h : g.getParents n = .ok ps) :
    ps.length ≤ 1 ∧ ∀ p, p ∈ ps ↔ g.Dominates p n := by
  unfold getParents at h
  split at h
  · simp only [bind, Except.bind] at h
    cases hd : dominatingSources (g.inEdges n) with
    | error e => rw [hd] at h; simp at h
    | ok qs =>
      rw [hd] at h
      simp only at h
      split at h
      · simp at h
      · simp only [Except.ok.injEq] at h
        subst h
        refine ⟨by omega, ?_⟩
        intro p
        rw [dominatingSources_ok hd]
        simp only [List.mem_map, List.mem_filter, decide_eq_true_eq]
        constructor
        · rintro ⟨⟨u, v, k, a⟩, ⟨h1, h2⟩, rfl⟩
          obtain ⟨rfl, h1⟩ := (mem_inEdges wf n u v k a).1 h1
          exact ⟨k, dominanceEdge_iff.2 ⟨a, h1, h2⟩⟩
        · rintro ⟨k, hk⟩
          obtain ⟨a, h1, h2⟩ := dominanceEdge_iff.1 hk
          exact ⟨(p, n, k, a), ⟨(mem_inEdges wf _ _ _ _ _).2 ⟨rfl, h1⟩, h2⟩, rfl⟩
  · simp at h

theorem climb_spec {g : DG} (wf : WF g) {i : Nat} {fuel : Nat} : ∀ {n : NodeId} {path path' : Dict NodeId Nat}, g.climb i fuel n path = .ok path' →
    (∀ m, g.Covers m n → ∃ ps, g.getParents m = .ok ps) ∧ (∀ m, g.Covers m n → ¬ Relation.TransGen g.Dominates m m) ∧
    (∀ m, (∃ x, find path m = some x) → find path' m = find path m) ∧
    (∀ m, find path m = none → ∀ j, find path' m = some j ↔ j = i ∧ g.Covers m n ∧ ∃ p, g.Dominates p m) := by
  induction fuel with
  | zero => intro n path path' h; simp [climb] at h
  | succ fuel ih =>
    intro n path path' h
    rw [climb] at h
    cases hp : g.getParents n with
    | error e => rw [hp] at h; simp [bind, Except.bind] at h
    | ok ps =>
      rw [hp] at h
      simp only [bind, Except.bind] at h
      obtain ⟨hlen, hmem⟩ := getParents_ok wf hp
      cases ps with
      | nil =>
        simp only [Except.ok.injEq] at h
        subst h
        have hno : ∀ p, ¬ g.Dominates p n := fun p hp => by simpa using (hmem p).2 hp
        have hcov : ∀ m, g.Covers m n → m = n := by
          intro m hm
          rcases Relation.ReflTransGen.cases_tail hm with e | ⟨b, _, hb⟩
          · exact e.symm
          · exact absurd hb (hno b)
        refine ⟨?_, ?_, fun m _ => rfl, ?_⟩
        · intro m hm; rw [hcov m hm]; exact ⟨_, hp⟩
        · intro m hm ht
          rw [hcov m hm] at ht
          obtain ⟨b, _, hb⟩ := Relation.TransGen.tail'_iff.1 ht
          exact hno b hb
        · intro m hm j
          rw [hm]
          simp only [reduceCtorEq, false_iff]
          rintro ⟨_, hc, p, hp'⟩
          rw [hcov m hc] at hp'
          exact hno p hp'
      | cons p rest =>
        simp only at h
        have hrest : rest = [] := by simp at hlen; exact hlen
        subst hrest
        have hpar : ∀ b, g.Dominates b n ↔ b = p := fun b => by rw [← hmem b]; simp
        have hcov : ∀ m, g.Covers m n ↔ m = n ∨ g.Covers m p := by
          intro m
          constructor
          · intro hm
            rcases Relation.ReflTransGen.cases_tail hm with e | ⟨b, h1, hb⟩
            · exact .inl e.symm
            · exact .inr ((hpar b).1 hb ▸ h1)
          · rintro (rfl | hm)
            · exact .refl
            · exact hm.tail ((hpar p).2 rfl)
        obtain ⟨h1, h2, h3, h4⟩ := ih h
        have hput : ∀ m, find (if has path n = true then path else put path n i) m = if m = n ∧ find path n = none then some i else find path m := by
          intro m
          by_cases hh : has path n = true
          · obtain ⟨x, hx⟩ := (mem_keys_iff _ _).1 ((has_iff _ _).1 hh)
            rw [if_pos hh, if_neg (by simp [hx])]
          · have hn : find path n = none := by
              rw [find_eq_none_iff]; exact fun h => hh ((has_iff _ _).2 h)
            rw [if_neg hh, find_put]
            by_cases hm : m = n
            · simp [hm, hn]
            · simp [hm, Ne.symm hm]
        refine ⟨?_, ?_, ?_, ?_⟩
        · intro m hm
          rcases (hcov m).1 hm with rfl | hm
          · exact ⟨_, hp⟩
          · exact h1 m hm
        · intro m hm ht
          rcases (hcov m).1 hm with rfl | hm
          · obtain ⟨b, hb1, hb⟩ := Relation.TransGen.tail'_iff.1 ht
            exact h2 m ((hpar b).1 hb ▸ hb1) ht
          · exact h2 m hm ht
        · rintro m ⟨x, hx⟩
          have : find (if has path n = true then path else put path n i) m = find path m := by
            rw [hput, if_neg]; rintro ⟨rfl, h⟩; rw [hx] at h; simp at h
          rw [h3 m ⟨x, this.trans hx⟩, this]
        · intro m hm j
          by_cases hmn : m = n
          · subst hmn
            have e : find (if has path m = true then path else put path m i) m = some i := by rw [hput, if_pos ⟨rfl, hm⟩]
            rw [h3 m ⟨_, e⟩, e]
            simp only [Option.some.injEq]
            constructor
            · rintro rfl; exact ⟨rfl, .refl, p, (hpar p).2 rfl⟩
            · exact fun h => h.1.symm
          · have e : find (if has path n = true then path else put path n i) m = none := by rw [hput, if_neg (fun h => hmn h.1)]; exact hm
            rw [h4 m e j, hcov m]
            simp [hmn]

theorem firstCovered_cons {g : DG} {t : NodeId} {ts : List NodeId} {m : NodeId} {j : Nat} :
    g.FirstCovered (t :: ts) m j ↔ (j = 0 ∧ g.Covers m t) ∨ (¬ g.Covers m t ∧ ∃ j', j = j' + 1 ∧ g.FirstCovered ts m j') := by
  unfold FirstCovered
  cases j with
  | zero => simp
  | succ j =>
    simp only [List.getElem?_cons_succ, Nat.add_eq_zero_iff, Nat.succ_ne_self, and_false, false_and, false_or, Nat.add_right_cancel_iff, exists_eq_left']
    constructor
    · rintro ⟨h1, h2⟩
      refine ⟨h2 0 (by omega) t rfl, h1, fun i hi t' ht' => h2 (i + 1) (by omega) t' (by simpa using ht')⟩
    · rintro ⟨h0, h1, h2⟩
      refine ⟨h1, fun i hi t' ht' => ?_⟩
      cases i with
      | zero => simp at ht'; subst ht'; exact h0
      | succ i => exact h2 i (by omega) t' (by simpa using ht')

theorem climbAll_spec {g : DG} (wf : WF g) {fuel : Nat} {ts : List NodeId} : ∀ {i : Nat} {path path' : Dict NodeId Nat}, g.climbAll fuel i ts path = .ok path' →
    (∀ t ∈ ts, ∀ m, g.Covers m t → (∃ ps, g.getParents m = .ok ps) ∧ ¬ Relation.TransGen g.Dominates m m) ∧
    (∀ m, (∃ x, find path m = some x) → find path' m = find path m) ∧
    (∀ m, find path m = none → ∀ j, find path' m = some j ↔ (∃ p, g.Dominates p m) ∧ ∃ j', j = i + j' ∧ g.FirstCovered ts m j') := by
  induction ts with
  | nil =>
    intro i path path' h
    simp only [climbAll, Except.ok.injEq] at h
    subst h
    refine ⟨by simp, fun m _ => rfl, fun m hm j => ?_⟩
    rw [hm]
    simp [FirstCovered]
  | cons t ts ih =>
    intro i path path' h
    rw [climbAll] at h
    cases hc : g.climb i fuel t path with
    | error e => rw [hc] at h; simp [bind, Except.bind] at h
    | ok path1 =>
      rw [hc] at h
      simp only [bind, Except.bind] at h
      obtain ⟨a1, a2, a3, a4⟩ := climb_spec wf hc
      obtain ⟨b1, b2, b3⟩ := ih h
      refine ⟨?_, ?_, ?_⟩
      · intro t' ht' m hm
        rcases List.mem_cons.1 ht' with rfl | ht'
        · exact ⟨a1 m hm, a2 m hm⟩
        · exact b1 t' ht' m hm
      · rintro m ⟨x, hx⟩
        have := a3 m ⟨x, hx⟩
        rw [b2 m ⟨x, this.trans hx⟩, this]
      · intro m hm j
        simp only [firstCovered_cons]
        by_cases hcov : g.Covers m t ∧ ∃ p, g.Dominates p m
        · have e : find path1 m = some i := (a4 m hm i).2 ⟨rfl, hcov⟩
          rw [b2 m ⟨i, e⟩, e]
          simp only [Option.some.injEq]
          constructor
          · rintro rfl; exact ⟨hcov.2, 0, by simp, .inl ⟨rfl, hcov.1⟩⟩
          · rintro ⟨_, j', hj, h | h⟩
            · omega
            · exact absurd hcov.1 h.1
        · have e : find path1 m = none := by
            cases hf : find path1 m with
            | none => rfl
            | some x => exact absurd ((a4 m hm x).1 hf).2 hcov
          rw [b3 m e j]
          constructor
          · rintro ⟨hp, j', hj, hf⟩
            exact ⟨hp, j' + 1, by omega, .inr ⟨fun h => hcov ⟨h, hp⟩, j', rfl, hf⟩⟩
          · rintro ⟨hp, j', hj, h | ⟨_, j'', rfl, hf⟩⟩
            · exact absurd ⟨h.2, hp⟩ hcov
            · exact ⟨hp, j'', by omega, hf⟩

theorem mapE_atomId {xs : List Atom} {ts : List NodeId} (h : mapE atomId xs = .ok ts) : xs = ts.map idAtom := by
  rw [mapE_ok] at h
  induction h with
  | nil => rfl
  | @cons x t xs ts h1 _ ih =>
    rw [List.map_cons, ← ih]
    congr 1
    cases x <;> simp [atomId] at h1 <;> subst h1 <;> rfl

theorem mapE_atomId_map (ts : List NodeId) : mapE atomId (ts.map idAtom) = .ok ts := by
  rw [mapE_ok]
  induction ts with
  | nil => exact .nil
  | cons t ts ih => exact .cons (by cases t <;> rfl) ih

theorem idAtom_injective {a b : NodeId} (h : idAtom a = idAtom b) : a = b := by
  cases a <;> cases b <;> simp_all [idAtom]

/-- what a successful horizontal_positions tells -/
theorem horizontalPositions_spec {g : DG} (wf : WF g) {fuel : Nat} {root : NodeId} {xpos : Dict NodeId Nat} (h : g.horizontalPositions fuel root = .ok xpos) :
    ∃ ts, g.TokensBelow root ts ∧
    (∀ t ∈ ts, ∀ m, g.Covers m t → (∃ ps, g.getParents m = .ok ps) ∧ ¬ Relation.TransGen g.Dominates m m) ∧
    (∀ m, m ≠ root → ∀ j, find xpos m = some j ↔ (∃ p, g.Dominates p m) ∧ g.FirstCovered ts m j) := by
  have fin : ∀ {ts path}, g.climbAll fuel 0 ts path = .ok xpos → (∀ m, m ≠ root → find path m = none) →
      (∀ t ∈ ts, ∀ m, g.Covers m t → (∃ ps, g.getParents m = .ok ps) ∧ ¬ Relation.TransGen g.Dominates m m) ∧
      (∀ m, m ≠ root → ∀ j, find xpos m = some j ↔ (∃ p, g.Dominates p m) ∧ g.FirstCovered ts m j) := by
    intro ts path hc hp
    obtain ⟨a, b, c⟩ := climbAll_spec wf hc
    refine ⟨a, fun m hm j => ?_⟩
    rw [c m (hp m hm) j]
    simp
  unfold horizontalPositions at h
  split at h
  · rename_i hr
    obtain ⟨a, b⟩ := fin h (fun _ _ => rfl)
    exact ⟨g.tokens, by simp [TokensBelow, hr], a, b⟩
  · rename_i hr
    cases hn : find g.nodes root with
    | none => rw [hn] at h; simp at h
    | some a =>
      rw [hn] at h
      simp only at h
      cases ht : find a "tokens" with
      | none =>
        rw [ht] at h
        obtain ⟨c, d⟩ := fin h (fun _ _ => rfl)
        exact ⟨g.tokens, by simp [TokensBelow, nodeAttr, nodeAttrs, hn, ht], c, d⟩
      | some v =>
        rw [ht] at h
        simp only [bind, Except.bind] at h
        cases v with
        | list xs =>
          rw [tokenIds] at h
          cases hx : mapE atomId xs with
          | error e => rw [hx] at h; simp at h
          | ok ts =>
            rw [hx] at h
            simp only at h
            obtain ⟨c, d⟩ := fin h (fun m hm => by simp [find, Ne.symm hm])
            refine ⟨ts, ?_, c, d⟩
            simp [TokensBelow, nodeAttr, nodeAttrs, hn, ht, hr, ← mapE_atomId hx]
        | _ => simp [tokenIds] at h

theorem tokensBelow_unique {g : DG} {root : NodeId} {ts ts' : List NodeId} (h : g.TokensBelow root ts) (h' : g.TokensBelow root ts') : ts = ts' := by
  unfold TokensBelow at h h'
  split at h
  · rename_i hc; rw [if_pos hc] at h'; rw [h, h']
  · rename_i hc
    rw [if_neg hc, h] at h'
    simp only [Option.some.injEq, Val.list.injEq] at h'
    exact List.map_injective_iff.2 (fun _ _ => idAtom_injective) h'

/-- the children of a node -/
theorem getChildNodes_spec {g : DG} (hr : Reachable g) {n : NodeId} (hn : g.HasNode n) :
    ∃ cs, g.getChildNodes n = (cs, none) ∧ cs.Nodup ∧ ∀ c, c ∈ cs ↔ g.Dominates n c := by
  obtain ⟨ids, h1, h2, h3⟩ := c10_select_neighbors_by_edge_attribute g hr n hn (some "edge_type") (.many ["dominates"])
  refine ⟨ids, h1, h2, fun c => ?_⟩
  rw [h3 c]
  unfold SomeEdgeMatches OutNeighbor Dominates DominanceEdge HasEdge
  simp only [Option.some.injEq, forall_eq', List.mem_singleton, exists_eq_left]
  constructor
  · rintro ⟨_, _, k, x, rfl, h⟩; exact ⟨k, h⟩
  · rintro ⟨k, h⟩
    refine ⟨⟨k, ?_⟩, ⟨k, _, h⟩, k, _, rfl, h⟩
    unfold edgeAttr at h
    cases he : g.edgeAttrs n c k with
    | none => rw [he] at h; simp at h
    | some a => rfl

theorem posLe_total (xpos : Dict NodeId Nat) (a b : NodeId) : posLe xpos a b = true ∨ posLe xpos b a = true := by
  unfold posLe; simp only [decide_eq_true_eq]; omega

theorem posLe_trans (xpos : Dict NodeId Nat) (a b c : NodeId) (h1 : posLe xpos a b = true) (h2 : posLe xpos b c = true) : posLe xpos a c = true := by
  unfold posLe at *; simp only [decide_eq_true_eq] at *; omega

theorem hasNode_of_getChildNodes {g : DG} (wf : WF g) {n : NodeId} {cs : List NodeId} (h : (g.getChildNodes n).all = .ok cs) : g.HasNode n := by
  unfold getChildNodes selectNeighborsByEdgeAttribute neighbors at h
  cases hf : find g.adj n with
  | none => rw [hf] at h; simp [Gen.all] at h
  | some d =>
    unfold HasNode; rw [← wf.adjKeys]
    exact (mem_keys_iff _ _).2 ⟨d, hf⟩

theorem sortedChildren_spec {g : DG} (hr : Reachable g) {xpos : Dict NodeId Nat} {n : NodeId} {cs : List NodeId} (h : g.sortedChildren xpos n = .ok cs) :
    g.HasNode n ∧ cs.Nodup ∧ (∀ c, c ∈ cs ↔ g.Dominates n c) ∧ (∀ c ∈ cs, ∃ i, find xpos c = some i) ∧ cs.Pairwise (fun a b => posLe xpos a b = true) := by
  unfold sortedChildren at h
  simp only [bind, Except.bind] at h
  cases hc : (g.getChildNodes n).all with
  | error e => rw [hc] at h; simp at h
  | ok ds =>
    rw [hc] at h
    have hn := hasNode_of_getChildNodes hr.inv.wf hc
    obtain ⟨ds', h1, h2, h3⟩ := getChildNodes_spec hr hn
    rw [h1] at hc
    simp only [Gen.all, Except.ok.injEq] at hc
    subst hc
    simp only at h
    split at h
    · rename_i hall
      simp only [Except.ok.injEq] at h
      subst h
      refine ⟨hn, pySorted_nodup.2 h2, fun c => ?_, fun c hc => ?_, pySorted_sorted (posLe_total xpos) (posLe_trans xpos) _⟩
      · rw [mem_pySorted, h3]
      · rw [mem_pySorted] at hc
        have := List.all_eq_true.1 hall c hc
        exact (mem_keys_iff _ _).1 ((has_iff _ _).1 this)
    · simp at h

end DG
end Dg
