import Verif.Spec.Offsets
import Verif.Lemmas.Text
import Verif.Lemmas.Edges

namespace Dg
open Dict
namespace DG

theorem mem_outEdges_iff {g : DG} (wf : WF g) (n u v : NodeId) (k : Key) (a : Attrs) :
    (u, v, k, a) ∈ g.outEdges n ↔ u = n ∧ g.edgeAttrs n v k = some a := by
  unfold outEdges
  simp only [List.mem_flatMap, List.mem_map]
  constructor
  · rintro ⟨⟨v', kd⟩, h2, ⟨k', a'⟩, h3, heq⟩
    simp only [Prod.mk.injEq] at heq
    obtain ⟨rfl, rfl, rfl, rfl⟩ := heq
    refine ⟨rfl, ?_⟩
    cases f1 : find g.adj n with
    | none => rw [f1] at h2; simp at h2
    | some d =>
      rw [f1] at h2
      simp only [Option.getD_some] at h2
      have f2 := mem_find (wf.nbrsNodup _ _ f1) h2
      have hkd : g.kd? n v' = some kd := by unfold kd?; rw [f1]; exact f2
      unfold edgeAttrs
      rw [hkd]
      exact mem_find (wf.kdNodup _ _ _ hkd) h3
  · rintro ⟨rfl, h⟩
    unfold edgeAttrs kd? at h
    cases f1 : find g.adj u with
    | none => rw [f1] at h; simp at h
    | some d =>
      rw [f1] at h; simp only [Option.bind_some] at h
      cases f2 : find d v with
      | none => rw [f2] at h; simp at h
      | some kd =>
        rw [f2] at h; simp only [Option.bind_some] at h
        exact ⟨(v, kd), by simpa using find_some_mem f2, (k, a), find_some_mem h, rfl⟩

theorem outEdges_triple_nodup {g : DG} (wf : WF g) (n : NodeId) : ((g.outEdges n).map Edge.triple).Nodup := by
  unfold outEdges
  cases f1 : find g.adj n with
  | none => simp
  | some d =>
    simp only [Option.getD_some]
    have hk : ∀ q ∈ d, (keys q.2).Nodup := by
      rintro ⟨v, kd⟩ hq
      have f2 := mem_find (wf.nbrsNodup _ _ f1) hq
      exact wf.kdNodup n v kd (by unfold kd?; rw [f1]; exact f2)
    have hd := wf.nbrsNodup _ _ f1
    clear f1
    induction d with
    | nil => simp
    | cons q d ih =>
      rw [List.flatMap_cons, List.map_append, List.nodup_append]
      have hd' : q.1 ∉ keys d ∧ (keys d).Nodup := List.nodup_cons.1 hd
      refine ⟨?_, ih (fun q' h' => hk q' (List.mem_cons_of_mem _ h')) hd'.2, ?_⟩
      · rw [List.map_map]
        have := hk q (by simp)
        unfold keys at this
        rw [List.nodup_iff_pairwise_ne, List.pairwise_map] at this ⊢
        exact this.imp (fun hne heq => hne (by simpa [Edge.triple] using heq))
      · intro a ha b hb hab
        subst hab
        simp only [List.mem_map, List.mem_flatMap] at ha hb
        obtain ⟨e1, ⟨r1, hr1, rfl⟩, rfl⟩ := ha
        obtain ⟨e2, ⟨q2, hq2, r2, hr2, rfl⟩, h2⟩ := hb
        simp only [Edge.triple, Prod.mk.injEq] at h2
        apply hd'.1
        rw [← h2.2.1]
        exact List.mem_map.2 ⟨q2, hq2, rfl⟩

/-- the edges that get_span follows -/
def followed (e : NodeId × NodeId × Key × Attrs) : Prop :=
  e.1 ≠ e.2.1 ∧ ∃ x, find e.2.2.2 "edge_type" = some x ∧ x ≠ .atom (.str "points_to")

instance (e : NodeId × NodeId × Key × Attrs) : Decidable (followed e) :=
  match h : find e.2.2.2 "edge_type" with
  | none => .isFalse (by rintro ⟨_, x, hx, _⟩; rw [h] at hx; simp at hx)
  | some x =>
    if h2 : e.1 ≠ e.2.1 ∧ x ≠ .atom (.str "points_to") then .isTrue ⟨h2.1, x, h, h2.2⟩
    else .isFalse (by
      rintro ⟨h1, y, hy, hy2⟩
      rw [h] at hy
      obtain rfl := Option.some.inj hy
      exact h2 ⟨h1, hy2⟩)

theorem spanLoop_ok {rec : NodeId → Except PyErr (List NodeId)} {es : List (NodeId × NodeId × Key × Attrs)} {xs : List NodeId}
    (h : spanLoop rec es = .ok xs) :
    ∃ yss, List.Forall₂ (fun (e : NodeId × NodeId × Key × Attrs) ys => rec e.2.1 = .ok ys) (es.filter (fun e => decide (followed e))) yss ∧
      xs = yss.flatten := by
  induction es generalizing xs with
  | nil =>
    simp only [spanLoop, Except.ok.injEq] at h
    subst h
    exact ⟨[], by simp, rfl⟩
  | cons e es ih =>
    obtain ⟨s, t, k, a⟩ := e
    unfold spanLoop at h
    by_cases hst : s = t
    · rw [if_pos hst] at h
      have hnf : ¬ followed (s, t, k, a) := fun hf => hf.1 hst
      simp only [List.filter_cons, hnf, decide_false, Bool.false_eq_true, if_false]
      exact ih h
    · rw [if_neg hst] at h
      unfold nonPointing at h
      cases hx : find a "edge_type" with
      | none => rw [hx] at h; simp [bind, Except.bind] at h
      | some x =>
        rw [hx] at h
        simp only [bind, Except.bind] at h
        by_cases hp : x = .atom (.str pointingRelation)
        · have hnf : ¬ followed (s, t, k, a) := by
            rintro ⟨_, y, hy, hne⟩
            simp only [hx, Option.some.injEq] at hy
            exact hne (hy ▸ hp)
          simp only [hp, ne_eq, not_true, decide_false, Bool.false_eq_true, if_false] at h
          simp only [List.filter_cons, hnf, decide_false, Bool.false_eq_true, if_false]
          exact ih h
        · have hf : followed (s, t, k, a) := ⟨hst, x, hx, hp⟩
          simp only [hp, ne_eq, not_false_iff, decide_true, if_true] at h
          cases hr : rec t with
          | error e => rw [hr] at h; simp at h
          | ok ys =>
            rw [hr] at h
            simp only at h
            cases hs : spanLoop rec es with
            | error e => rw [hs] at h; simp at h
            | ok zs =>
              rw [hs] at h
              simp only [Except.ok.injEq] at h
              subst h
              obtain ⟨yss, h1, rfl⟩ := ih hs
              refine ⟨ys :: yss, ?_, by simp⟩
              simp only [List.filter_cons, hf, decide_true, if_true]
              exact .cons hr h1

theorem spanLoop_total {rec : NodeId → Except PyErr (List NodeId)} {es : List (NodeId × NodeId × Key × Attrs)}
    (hrec : ∀ e ∈ es, followed e → ∃ ys, rec e.2.1 = .ok ys)
    (hty : ∀ e ∈ es, e.1 ≠ e.2.1 → ∃ x, find e.2.2.2 "edge_type" = some x) : ∃ xs, spanLoop rec es = .ok xs := by
  induction es with
  | nil => exact ⟨[], rfl⟩
  | cons e es ih =>
    obtain ⟨zs, hz⟩ := ih (fun e he => hrec e (List.mem_cons_of_mem _ he)) (fun e he => hty e (List.mem_cons_of_mem _ he))
    obtain ⟨s, t, k, a⟩ := e
    unfold spanLoop
    by_cases hst : s = t
    · rw [if_pos hst]; exact ⟨zs, hz⟩
    · rw [if_neg hst]
      obtain ⟨x, hx⟩ := hty (s, t, k, a) (by simp) hst
      unfold nonPointing
      simp only at hx
      rw [hx]
      simp only [bind, Except.bind]
      by_cases hp : x = .atom (.str pointingRelation)
      · simp only [hp, ne_eq, not_true, decide_false, Bool.false_eq_true, if_false]
        exact ⟨zs, hz⟩
      · simp only [hp, ne_eq, not_false_iff, decide_true, if_true]
        obtain ⟨ys, hy⟩ := hrec (s, t, k, a) (by simp) ⟨hst, x, hx, hp⟩
        simp only at hy
        rw [hy, hz]
        exact ⟨_, rfl⟩

theorem followed_iff_spanEdge {g : DG} (wf : WF g) (u v : NodeId) :
    g.SpanEdge u v ↔ ∃ e ∈ g.outEdges u, followed e ∧ e.2.1 = v := by
  constructor
  · rintro ⟨hne, k, a, x, ha, hx, hp⟩
    exact ⟨(u, v, k, a), (mem_outEdges_iff wf _ _ _ _ _).2 ⟨rfl, ha⟩, ⟨hne, x, hx, hp⟩, rfl⟩
  · rintro ⟨⟨s, t, k, a⟩, he, ⟨hne, x, hx, hp⟩, rfl⟩
    obtain ⟨rfl, ha⟩ := (mem_outEdges_iff wf _ _ _ _ _).1 he
    exact ⟨hne, k, a, x, ha, hx, hp⟩

theorem spanEdge_target {g : DG} (wf : WF g) {u v : NodeId} (h : g.SpanEdge u v) : g.HasNode v ∧ g.HasNode u := by
  obtain ⟨_, k, a, x, ha, _⟩ := h
  unfold edgeAttrs at ha
  cases hk : g.kd? u v with
  | none => rw [hk] at ha; simp at ha
  | some kd => exact ⟨wf.target u v kd hk, kd?_source wf hk⟩

theorem Spans.trans {g : DG} {u v w : NodeId} (h1 : g.Spans u v) (h2 : g.Spans v w) : g.Spans u w := by
  induction h1 with
  | refl => exact h2
  | step e _ ih => exact .step e (ih h2)

theorem isToken_iff {g : DG} {n : NodeId} {a : Attrs} (h : g.nodeAttrs n = some a) : g.IsToken n ↔ has a (qual g.ns "token") = true := by
  unfold IsToken nodeAttr
  rw [h]
  simp only [Option.bind_some, has, Option.isSome_iff_exists]
  rfl

/-- decomposition of a successful call -/
theorem getSpan_succ {g : DG} {fuel : Nat} {n : NodeId} {span : List NodeId} (h : g.getSpan fuel n = .ok span) :
    ∃ f a rest, fuel = f + 1 ∧ g.nodeAttrs n = some a ∧ spanLoop (g.getSpan f) (g.outEdges n) = .ok rest ∧
      span = naturalSorted ((if has a (qual g.ns "token") then [n] else []) ++ rest) := by
  cases fuel with
  | zero => simp [getSpan] at h
  | succ f =>
    unfold getSpan at h
    cases ha : find g.nodes n with
    | none => rw [ha] at h; simp at h
    | some a =>
      rw [ha] at h
      simp only at h
      cases hs : spanLoop (g.getSpan f) (g.outEdges n) with
      | error e => rw [hs] at h; simp [bind, Except.bind] at h
      | ok rest =>
        rw [hs] at h
        simp only [bind, Except.bind, Except.ok.injEq] at h
        exact ⟨f, a, rest, rfl, ha, hs, h.symm⟩

theorem forall₂_mem_left {α β : Type} {R : α → β → Prop} {as : List α} {bs : List β} (h : List.Forall₂ R as bs) {a : α} (ha : a ∈ as) :
    ∃ b ∈ bs, R a b := by
  induction h with
  | nil => simp at ha
  | cons h1 _ ih =>
    rcases List.mem_cons.1 ha with rfl | ha
    · exact ⟨_, by simp, h1⟩
    · obtain ⟨b, hb, hr⟩ := ih ha
      exact ⟨b, List.mem_cons_of_mem _ hb, hr⟩

theorem forall₂_mem_right {α β : Type} {R : α → β → Prop} {as : List α} {bs : List β} (h : List.Forall₂ R as bs) {b : β} (hb : b ∈ bs) :
    ∃ a ∈ as, R a b := by
  induction h with
  | nil => simp at hb
  | cons h1 _ ih =>
    rcases List.mem_cons.1 hb with rfl | hb
    · exact ⟨_, by simp, h1⟩
    · obtain ⟨a, ha, hr⟩ := ih hb
      exact ⟨a, List.mem_cons_of_mem _ ha, hr⟩

theorem getSpan_mem {g : DG} (wf : WF g) (fuel : Nat) : ∀ (n : NodeId) (span : List NodeId), g.getSpan fuel n = .ok span →
    ∀ m, m ∈ span ↔ g.IsToken m ∧ g.Spans n m := by
  induction fuel with
  | zero => intro n span h; simp [getSpan] at h
  | succ fuel ih =>
    intro n span h m
    obtain ⟨f, a, rest, hf, ha, hs, rfl⟩ := getSpan_succ h
    obtain rfl : fuel = f := by omega
    obtain ⟨yss, h2, rfl⟩ := spanLoop_ok hs
    rw [naturalSorted, mem_pySorted, List.mem_append]
    constructor
    · rintro (hm | hm)
      · split at hm
        · simp only [List.mem_singleton] at hm
          subst hm
          exact ⟨(isToken_iff ha).2 (by assumption), .refl _⟩
        · simp at hm
      · obtain ⟨ys, hys, hm⟩ := List.mem_flatten.1 hm
        obtain ⟨e, he, hr⟩ := forall₂_mem_right h2 hys
        obtain ⟨he1, he2⟩ := List.mem_filter.1 he
        obtain ⟨t1, t2⟩ := (ih _ _ hr m).1 hm
        exact ⟨t1, .step ((followed_iff_spanEdge wf _ _).2 ⟨e, he1, of_decide_eq_true he2, rfl⟩) t2⟩
    · rintro ⟨ht, hsp⟩
      cases hsp with
      | refl =>
        left
        rw [if_pos ((isToken_iff ha).1 ht)]
        simp
      | step he hrest =>
        right
        obtain ⟨e, he1, he2, rfl⟩ := (followed_iff_spanEdge wf _ _).1 he
        obtain ⟨ys, hys, hr⟩ := forall₂_mem_left h2 (List.mem_filter.2 ⟨he1, decide_eq_true he2⟩)
        exact List.mem_flatten.2 ⟨ys, hys, (ih _ _ hr m).2 ⟨ht, hrest⟩⟩

theorem getSpan_sorted {g : DG} {fuel : Nat} {n : NodeId} {span : List NodeId} (h : g.getSpan fuel n = .ok span) :
    span.Pairwise (fun a b => naturalLe a b = true) := by
  obtain ⟨f, a, rest, _, _, _, rfl⟩ := getSpan_succ h
  exact pySorted_sorted naturalLe_total naturalLe_trans _

/-! ### termination -/

theorem countP_lt {α : Type} {p q : α → Bool} {l : List α} (hpq : ∀ x, p x = true → q x = true)
    {y : α} (hy : y ∈ l) (h1 : q y = true) (h2 : p y = false) : l.countP p < l.countP q := by
  have hle : ∀ l : List α, l.countP p ≤ l.countP q := fun l => List.countP_mono_left (fun x _ => hpq x)
  induction l with
  | nil => simp at hy
  | cons x l ih =>
    rw [List.countP_cons, List.countP_cons]
    rcases List.mem_cons.1 hy with rfl | hy
    · have := hle l
      simp [h1, h2]; omega
    · have := ih hy
      have : (if p x = true then 1 else 0) ≤ (if q x = true then 1 else 0) := by
        by_cases hp : p x = true
        · simp [hp, hpq x hp]
        · simp [hp]
      omega

open Classical in
/-- number of proper descendants -/
noncomputable def spanRank (g : DG) (n : NodeId) : Nat := (keys g.nodes).countP (fun v => decide (v ≠ n ∧ g.Spans n v))

theorem spanRank_lt {g : DG} (wf : WF g) (hac : g.SpanAcyclic) {u v : NodeId} (h : g.SpanEdge u v) : g.spanRank v < g.spanRank u := by
  classical
  unfold spanRank
  refine countP_lt (y := v) ?_ (spanEdge_target wf h).1 ?_ ?_
  · intro w hw
    simp only [decide_eq_true_eq] at hw ⊢
    refine ⟨?_, .step h hw.2⟩
    rintro rfl
    exact hac _ _ h hw.2
  · simp only [decide_eq_true_eq]
    exact ⟨fun e => h.1 e.symm, .step h (.refl _)⟩
  · simp

theorem spanRank_lt_length {g : DG} {n : NodeId} (h : g.HasNode n) : g.spanRank n < g.nodes.length := by
  classical
  have h1 := countP_lt (l := keys g.nodes) (p := fun v => decide (v ≠ n ∧ g.Spans n v)) (q := fun _ => true) (y := n)
    (fun _ _ => rfl) h rfl (by simp)
  unfold spanRank
  have : (keys g.nodes).countP (fun _ => true) = g.nodes.length := by simp [keys]
  omega

theorem getSpan_total {g : DG} (wf : WF g) (hac : g.SpanAcyclic) (fuel : Nat) : ∀ n, g.spanRank n < fuel → g.HasNode n →
    (∀ u v k a, g.Spans n u → u ≠ v → g.edgeAttrs u v k = some a → ∃ x, find a "edge_type" = some x) →
    ∃ span, g.getSpan fuel n = .ok span := by
  induction fuel with
  | zero => intro n h; omega
  | succ fuel ih =>
    intro n hr hn hty
    obtain ⟨a, ha⟩ := (mem_keys_iff _ _).1 hn
    have : ∃ rest, spanLoop (g.getSpan fuel) (g.outEdges n) = .ok rest := by
      apply spanLoop_total
      · rintro ⟨s, t, k, b⟩ he hf
        have hse : g.SpanEdge n t := (followed_iff_spanEdge wf _ _).2 ⟨_, he, hf, rfl⟩
        refine ih t (by have := spanRank_lt wf hac hse; omega) (spanEdge_target wf hse).1 ?_
        intro u v k a hsp
        exact hty u v k a (.step hse hsp)
      · rintro ⟨s, t, k, b⟩ he hne
        obtain ⟨rfl, hb⟩ := (mem_outEdges_iff wf _ _ _ _ _).1 he
        exact hty s t k b (.refl _) hne hb
    obtain ⟨rest, hrest⟩ := this
    unfold getSpan
    rw [ha]
    simp only
    rw [hrest]
    exact ⟨_, rfl⟩

end DG
end Dg
