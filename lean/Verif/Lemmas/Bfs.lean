import Verif.Model.Tree
import Verif.Lemmas.Forall2
import Mathlib.Data.List.Nodup

/-! The breadth-first loop of sorted_bfs_edges, for any function giving the children. -/

namespace Dg

/-- the edges from each parent of `L` to the children chosen for it -/
def blockEdges : List NodeId → List (List NodeId) → List (NodeId × NodeId)
  | p :: ps, b :: bs => b.map (fun c => (p, c)) ++ blockEdges ps bs
  | _, _ => []

/-- what a finished run of the loop has produced -/
structure BfsRun (children : NodeId → Except PyErr (List NodeId)) (q : List (NodeId × List NodeId)) (vis : List NodeId) (es : List (NodeId × NodeId)) : Prop where
  targetsNodup : (es.map Prod.snd).Nodup
  targetsNew : ∀ c ∈ es.map Prod.snd, c ∉ vis
  queueDone : ∀ p cs, (p, cs) ∈ q → ∀ c ∈ cs, c ∈ vis ∨ c ∈ es.map Prod.snd
  targetsOk : ∀ t ∈ es.map Prod.snd, ∃ gs, children t = .ok gs ∧ ∀ c ∈ gs, c ∈ vis ∨ c ∈ es.map Prod.snd
  blocks : ∃ bs, List.Forall₂ (fun p b => ∃ cs, p.2 = .ok cs ∧ List.Sublist b cs)
      (q.map (fun p => (p.1, Except.ok p.2)) ++ (es.map Prod.snd).map (fun t => (t, children t))) bs ∧
    es = blockEdges (q.map Prod.fst ++ es.map Prod.snd) bs

theorem bfsLoop_run (children : NodeId → Except PyErr (List NodeId)) (univ : List NodeId) (q : List (NodeId × List NodeId)) (vis : List NodeId) :
    ∀ es, bfsLoop children univ q vis = (es, none) → BfsRun children q vis es := by
  induction q, vis using bfsLoop.induct children univ with
  | case1 vis =>
    intro es h
    rw [bfsLoop] at h
    simp only [Prod.mk.injEq, and_true] at h
    subst h
    exact ⟨by simp, by simp, by simp, by simp, [], by simp, rfl⟩
  | case2 p q vis ih =>
    intro es h
    rw [bfsLoop] at h
    obtain ⟨h1, h2, h3, h4, bs, h5, h6⟩ := ih es h
    refine ⟨h1, h2, ?_, h4, [] :: bs, ?_, ?_⟩
    · intro p' cs hm c hc
      rcases List.mem_cons.1 hm with e | hm
      · injection e with _ e; subst e; simp at hc
      · exact h3 p' cs hm c hc
    · exact .cons ⟨[], rfl, List.Sublist.slnil⟩ h5
    · rw [List.map_cons, List.cons_append]
      simp only [blockEdges, List.map_nil, List.nil_append]
      exact h6
  | case3 p c cs q vis hc ih =>
    intro es h
    rw [bfsLoop, dif_pos hc] at h
    obtain ⟨h1, h2, h3, h4, bs, h5, h6⟩ := ih es h
    refine ⟨h1, h2, ?_, h4, bs, ?_, ?_⟩
    · intro p' cs' hm c' hc'
      rcases List.mem_cons.1 hm with e | hm
      · injection e with e1 e2; subst e1 e2
        rcases List.mem_cons.1 hc' with rfl | hc'
        · exact .inl hc
        · exact h3 p' cs (by simp) c' hc'
      · exact h3 p' cs' (List.mem_cons_of_mem _ hm) c' hc'
    · rw [List.map_cons, List.cons_append] at h5 ⊢
      cases h5 with
      | cons hb ht =>
        obtain ⟨cs', e, hs⟩ := hb
        simp only [Except.ok.injEq] at e
        subst e
        exact .cons ⟨_, rfl, List.Sublist.cons c hs⟩ ht
    · exact h6
  | case4 p c cs q vis hc hu e he =>
    intro es h
    rw [bfsLoop, dif_neg hc, dif_pos hu, he] at h
    simp at h
  | case5 p c cs q vis hc hu gs hgs ih =>
    intro es h
    rw [bfsLoop, dif_neg hc, dif_pos hu, hgs] at h
    simp only at h
    cases hr : bfsLoop children univ ((p, cs) :: q ++ [(c, gs)]) (c :: vis) with
    | mk es' o =>
      rw [hr] at h ih
      simp only [Prod.mk.injEq] at h
      obtain ⟨rfl, rfl⟩ := h
      obtain ⟨h1, h2, h3, h4, bs, h5, h6⟩ := ih es' rfl
      have new : ∀ x, x ∈ c :: vis ∨ x ∈ es'.map Prod.snd → x ∈ vis ∨ x ∈ ((p, c) :: es').map Prod.snd := by
        intro x hx
        rw [List.map_cons, List.mem_cons]
        rcases hx with hx | hx
        · rcases List.mem_cons.1 hx with rfl | hx
          · exact .inr (.inl rfl)
          · exact .inl hx
        · exact .inr (.inr hx)
      refine ⟨?_, ?_, ?_, ?_, ?_⟩
      · rw [List.map_cons, List.nodup_cons]
        exact ⟨fun hm => h2 c hm (by simp), h1⟩
      · intro x hx
        rw [List.map_cons] at hx
        rcases List.mem_cons.1 hx with rfl | hx
        · exact hc
        · exact fun hv => h2 x hx (List.mem_cons_of_mem _ hv)
      · intro p' cs' hm c' hc'
        rcases List.mem_cons.1 hm with e | hm
        · injection e with e1 e2; subst e1 e2
          rcases List.mem_cons.1 hc' with rfl | hc'
          · exact .inr (by simp)
          · exact new _ (h3 p' cs (by simp) c' hc')
        · exact new _ (h3 p' cs' (by simp [hm]) c' hc')
      · intro t ht
        rw [List.map_cons] at ht
        rcases List.mem_cons.1 ht with rfl | ht
        · exact ⟨gs, hgs, fun x hx => new _ (h3 t gs (by simp) x hx)⟩
        · obtain ⟨gs', e1, e2⟩ := h4 t ht
          exact ⟨gs', e1, fun x hx => new _ (e2 x hx)⟩
      · simp only [List.map_append, List.map_cons, List.map_nil, List.cons_append, List.append_assoc, List.nil_append] at h5 h6 ⊢
        cases h5 with
        | @cons _ b _ bs' hb ht =>
          obtain ⟨cs', e, hs⟩ := hb
          simp only [Except.ok.injEq] at e
          subst e
          refine ⟨(c :: b) :: bs', .cons ⟨_, rfl, List.Sublist.cons_cons c hs⟩ ?_, ?_⟩
          · rw [hgs]; exact ht
          · simp only [blockEdges, List.map_cons, List.cons_append] at h6 ⊢
            rw [← h6]
  | case6 p c cs q vis hc hu =>
    intro es h
    rw [bfsLoop, dif_neg hc, dif_neg hu] at h
    simp at h

/-- The loop succeeds if the children of all nodes that can be reached are known. -/
theorem bfsLoop_total (children : NodeId → Except PyErr (List NodeId)) (univ : List NodeId) (P : NodeId → Prop) (hP : ∀ n, P n → n ∈ univ ∧ ∃ gs, children n = .ok gs ∧ ∀ c ∈ gs, P c)
    (q : List (NodeId × List NodeId)) (vis : List NodeId) : (∀ p ∈ q, ∀ c ∈ p.2, P c) → ∃ es, bfsLoop children univ q vis = (es, none) := by
  induction q, vis using bfsLoop.induct children univ with
  | case1 vis => intro _; exact ⟨[], by rw [bfsLoop]⟩
  | case2 p q vis ih => intro h; rw [bfsLoop]; exact ih (fun p hp => h p (List.mem_cons_of_mem _ hp))
  | case3 p c cs q vis hc ih =>
    intro h
    rw [bfsLoop, dif_pos hc]
    apply ih
    intro p' hp
    rcases List.mem_cons.1 hp with rfl | hp
    · exact fun c' hc' => h (p, c :: cs) (by simp) c' (List.mem_cons_of_mem _ hc')
    · exact h p' (List.mem_cons_of_mem _ hp)
  | case4 p c cs q vis hc hu e he =>
    intro h
    obtain ⟨gs, hg, _⟩ := (hP c (h (p, c :: cs) (by simp) c (by simp))).2
    rw [he] at hg; simp at hg
  | case5 p c cs q vis hc hu gs hgs ih =>
    intro h
    obtain ⟨gs', hg, hch⟩ := (hP c (h (p, c :: cs) (by simp) c (by simp))).2
    rw [hgs] at hg; injection hg with hg; subst hg
    obtain ⟨es, he⟩ := ih (by
      intro p' hp
      simp only [List.cons_append, List.mem_cons, List.mem_append, List.not_mem_nil, or_false] at hp
      rcases hp with rfl | hp | rfl
      · exact fun c' hc' => h (p, c :: cs) (by simp) c' (List.mem_cons_of_mem _ hc')
      · exact h p' (List.mem_cons_of_mem _ hp)
      · exact hch)
    rw [bfsLoop, dif_neg hc, dif_pos hu, hgs]
    simp only [he]
    exact ⟨_, rfl⟩
  | case6 p c cs q vis hc hu => intro h; exact absurd (hP c (h (p, c :: cs) (by simp) c (by simp))).1 hu

theorem mem_blockEdges {L : List NodeId} {bs : List (List NodeId)} {e : NodeId × NodeId} (h : e ∈ blockEdges L bs) : e.1 ∈ L ∧ ∃ b ∈ bs, e.2 ∈ b := by
  induction L generalizing bs with
  | nil => simp [blockEdges] at h
  | cons p L ih =>
    cases bs with
    | nil => simp [blockEdges] at h
    | cons b bs =>
      rw [blockEdges, List.mem_append] at h
      rcases h with h | h
      · obtain ⟨c, hc, rfl⟩ := List.mem_map.1 h
        exact ⟨by simp, b, by simp, hc⟩
      · obtain ⟨h1, b', h2, h3⟩ := ih h
        exact ⟨List.mem_cons_of_mem _ h1, b', List.mem_cons_of_mem _ h2, h3⟩

theorem blockEdges_forall₂ {R : NodeId → NodeId → Prop} {L : List NodeId} {bs : List (List NodeId)} (h : List.Forall₂ (fun p b => ∀ c ∈ b, R p c) L bs) :
    ∀ e ∈ blockEdges L bs, R e.1 e.2 := by
  induction h with
  | nil => simp [blockEdges]
  | cons h1 _ ih =>
    intro e he
    rw [blockEdges, List.mem_append] at he
    rcases he with he | he
    · obtain ⟨c, hc, rfl⟩ := List.mem_map.1 he; exact h1 c hc
    · exact ih e he

theorem blockEdges_siblings {Q : NodeId → NodeId → Prop} {L : List NodeId} {bs : List (List NodeId)} (hL : L.Nodup) (hb : ∀ b ∈ bs, b.Pairwise Q) :
    (blockEdges L bs).Pairwise (fun e e' => e.1 = e'.1 → Q e.2 e'.2) := by
  induction L generalizing bs with
  | nil => simp [blockEdges]
  | cons p L ih =>
    cases bs with
    | nil => simp [blockEdges]
    | cons b bs =>
      rw [blockEdges, List.pairwise_append]
      rw [List.nodup_cons] at hL
      refine ⟨?_, ih hL.2 (fun b hb' => hb b (List.mem_cons_of_mem _ hb')), ?_⟩
      · rw [List.pairwise_map]
        refine (hb b (by simp)).imp ?_
        intro x y h _
        exact h
      · intro e he e' he' heq
        obtain ⟨c, _, rfl⟩ := List.mem_map.1 he
        exact absurd (by rw [show p = e'.1 from heq]; exact (mem_blockEdges he').1) hL.1

theorem blockEdges_order {L : List NodeId} {bs : List (List NodeId)} (hL : L.Nodup) :
    (blockEdges L bs).Pairwise (fun e e' => L.idxOf e.1 ≤ L.idxOf e'.1) := by
  induction L generalizing bs with
  | nil => simp [blockEdges]
  | cons p L ih =>
    cases bs with
    | nil => simp [blockEdges]
    | cons b bs =>
      rw [blockEdges, List.pairwise_append]
      rw [List.nodup_cons] at hL
      have hidx : ∀ e ∈ blockEdges L bs, (p :: L).idxOf e.1 = L.idxOf e.1 + 1 := by
        intro e he
        have : p ≠ e.1 := fun h => hL.1 (h ▸ (mem_blockEdges he).1)
        exact List.idxOf_cons_ne _ this
      refine ⟨?_, ?_, ?_⟩
      · rw [List.pairwise_map]
        exact List.pairwise_of_forall_mem_list (fun _ _ _ _ => by simp)
      · refine (List.Pairwise.and_mem.1 (ih (bs := bs) hL.2)).imp ?_
        rintro e e' ⟨h1, h2, h3⟩
        rw [hidx e h1, hidx e' h2]; omega
      · intro e he e' he'
        obtain ⟨c, _, rfl⟩ := List.mem_map.1 he
        simp

/-- every edge starts at a node that was in the queue or has been reached before -/
theorem bfsLoop_parentsFirst (children : NodeId → Except PyErr (List NodeId)) (univ : List NodeId) (q : List (NodeId × List NodeId)) (vis : List NodeId) :
    ∀ es, (bfsLoop children univ q vis).1 = es → ∀ pre e post, es = pre ++ e :: post → e.1 ∈ q.map Prod.fst ∨ e.1 ∈ pre.map Prod.snd := by
  induction q, vis using bfsLoop.induct children univ with
  | case1 vis => intro es h pre e post he; rw [bfsLoop] at h; subst h; simp at he
  | case2 p q vis ih =>
    intro es h pre e post he
    rw [bfsLoop] at h
    rcases ih es h pre e post he with h | h
    · exact .inl (List.mem_cons_of_mem _ h)
    · exact .inr h
  | case3 p c cs q vis hc ih =>
    intro es h
    rw [bfsLoop, dif_pos hc] at h
    exact ih es h
  | case4 p c cs q vis hc hu e he =>
    intro es h pre e' post he'
    rw [bfsLoop, dif_neg hc, dif_pos hu, he] at h
    simp only at h
    subst h
    cases pre with
    | nil => simp at he'; rw [← he'.1]; simp
    | cons x pre => simp at he'
  | case5 p c cs q vis hc hu gs hgs ih =>
    intro es h pre e post he
    rw [bfsLoop, dif_neg hc, dif_pos hu, hgs] at h
    simp only at h
    subst h
    cases pre with
    | nil =>
      simp only [List.nil_append, List.cons.injEq] at he
      rw [← he.1]; simp
    | cons x pre =>
      simp only [List.cons_append, List.cons.injEq] at he
      rcases ih _ rfl pre e post he.2 with h | h
      · simp only [List.map_append, List.map_cons, List.map_nil, List.mem_append, List.mem_cons, List.not_mem_nil, or_false, List.cons_append] at h
        rcases h with h | h | h
        · exact .inl (by simp [h])
        · exact .inl (by simp [List.mem_map.1 h])
        · rw [h, ← he.1]; exact .inr (by simp)
      · exact .inr (by simp only [List.map_cons, List.mem_cons]; exact .inr h)
  | case6 p c cs q vis hc hu =>
    intro es h pre e' post he'
    rw [bfsLoop, dif_neg hc, dif_neg hu] at h
    simp only at h
    subst h
    cases pre with
    | nil => simp at he'; rw [← he'.1]; simp
    | cons x pre => simp at he'

end Dg
