import Verif.Model.Chains
import Verif.Lemmas.Rank

namespace Dg
open Dict
namespace DG

/-! ### the relation dictionary -/

/-- what the dictionary says -/
def Rel (d : RelDict) (u v : NodeId) : Prop := v ∈ (find d u).getD []

theorem rel_relAdd (d : RelDict) (u v x y : NodeId) : Rel (relAdd d u v) x y ↔ Rel d x y ∨ (x = u ∧ y = v) := by
  unfold Rel relAdd
  rw [find_put]
  by_cases h : u = x
  · subst h; simp [mem_setAdd]
  · have : ¬ x = u := fun e => h e.symm
    simp [h, this]

/-- invariants of the dictionary -/
structure RelOK (d : RelDict) : Prop where
  nodup : (keys d).Nodup
  targets : ∀ u ts, find d u = some ts → ts ≠ [] ∧ ts.Nodup

theorem relOK_relAdd {d : RelDict} (h : RelOK d) (u v : NodeId) : RelOK (relAdd d u v) := by
  refine ⟨nodup_put h.nodup _ _, ?_⟩
  intro x ts hx
  unfold relAdd at hx
  rw [find_put] at hx
  split at hx
  · simp only [Option.some.injEq] at hx
    subst hx
    constructor
    · intro h0
      have : v ∈ setAdd ((find d u).getD []) v := by simp
      rw [h0] at this; simp at this
    · apply nodup_setAdd
      cases hu : find d u with
      | none => simp
      | some us => exact (h.targets u us hu).2
  · exact h.targets x ts hx

theorem buildRel_spec (es : List (NodeId × NodeId)) : RelOK (buildRel es) ∧ ∀ u v, Rel (buildRel es) u v ↔ (u, v) ∈ es := by
  have key : ∀ (es : List (NodeId × NodeId)) (d : RelDict), RelOK d →
      RelOK (es.foldl (fun d e => relAdd d e.1 e.2) d) ∧
      ∀ u v, Rel (es.foldl (fun d e => relAdd d e.1 e.2) d) u v ↔ Rel d u v ∨ (u, v) ∈ es := by
    intro es
    induction es with
    | nil => intro d hd; exact ⟨hd, by simp⟩
    | cons e es ih =>
      intro d hd
      obtain ⟨h1, h2⟩ := ih (relAdd d e.1 e.2) (relOK_relAdd hd _ _)
      refine ⟨h1, ?_⟩
      intro u v
      rw [List.foldl_cons, h2, rel_relAdd, List.mem_cons]
      obtain ⟨a, b⟩ := e
      simp only [Prod.mk.injEq]
      tauto
  obtain ⟨h1, h2⟩ := key es [] ⟨by simp [keys], by simp⟩
  refine ⟨h1, ?_⟩
  intro u v
  have h3 := h2 u v
  simpa [buildRel, Rel] using h3

theorem has_iff_rel {d : RelDict} (h : RelOK d) (u : NodeId) : has d u = true ↔ ∃ v, Rel d u v := by
  unfold has Rel
  cases hu : find d u with
  | none => simp
  | some ts =>
    have := (h.targets u ts hu).1
    simp only [Option.isSome_some, Option.getD_some, true_iff]
    exact List.exists_mem_of_ne_nil ts this

/-! ### lists that follow a relation -/

theorem follows_two {R : NodeId → NodeId → Prop} {x y : NodeId} (h : R x y) : Follows R [x, y] := by
  refine ⟨by simp, ?_⟩
  intro pre a b post he
  cases pre with
  | nil => simp at he; obtain ⟨rfl, rfl, rfl⟩ := he; exact h
  | cons p pre =>
    have := congrArg List.length he
    simp at this
    omega

theorem follows_cons {R : NodeId → NodeId → Prop} {x y : NodeId} {c : List NodeId} (h : R x y) (hc : Follows R (y :: c)) : Follows R (x :: y :: c) := by
  refine ⟨by simp, ?_⟩
  intro pre a b post he
  cases pre with
  | nil => simp at he; obtain ⟨rfl, rfl, rfl⟩ := he; exact h
  | cons p pre =>
    simp only [List.cons_append, List.cons.injEq] at he
    exact hc.2 pre a b post he.2

theorem follows_uncons {R : NodeId → NodeId → Prop} {x y : NodeId} {c : List NodeId} (h : Follows R (x :: y :: c)) :
    R x y ∧ (c ≠ [] → Follows R (y :: c)) := by
  refine ⟨h.2 [] x y c rfl, fun hne => ⟨?_, ?_⟩⟩
  · have := List.length_pos_iff.2 hne
    simp only [List.length_cons]; omega
  · intro pre a b post he
    exact h.2 (x :: pre) a b post (by rw [he]; rfl)

theorem endsDead_cons {R : NodeId → NodeId → Prop} {x y : NodeId} {c : List NodeId} : EndsDead R (x :: y :: c) ↔ EndsDead R (y :: c) := by
  unfold EndsDead
  simp only [List.getLast?_cons_cons]

/-! ### __walk_chain -/

/-- what walking from `src` should give -/
def IsWalk (d : RelDict) (src : NodeId) (c : List NodeId) : Prop := c.head? = some src ∧ Follows (Rel d) c ∧ EndsDead (Rel d) c

theorem isWalk_iff {d : RelDict} (hd : RelOK d) (src : NodeId) (c : List NodeId) :
    IsWalk d src c ↔ ∃ t, Rel d src t ∧ ((has d t = true ∧ ∃ tail, c = src :: tail ∧ IsWalk d t tail) ∨ (has d t = false ∧ c = [src, t])) := by
  constructor
  · rintro ⟨hh, hf, he⟩
    match c, hh, hf, he with
    | [], hh, _, _ => simp at hh
    | [x], _, hf, _ => have := hf.1; simp at this
    | x :: y :: c, hh, hf, he =>
      simp at hh
      subst hh
      obtain ⟨hxy, hrest⟩ := follows_uncons hf
      refine ⟨y, hxy, ?_⟩
      by_cases hc : c = []
      · subst hc
        right
        refine ⟨?_, rfl⟩
        rw [Bool.eq_false_iff, ne_eq, has_iff_rel hd]
        rintro ⟨v, hv⟩
        exact he y (by simp) v hv
      · left
        have hc' := hrest hc
        refine ⟨?_, y :: c, rfl, rfl, hc', endsDead_cons.1 he⟩
        rw [has_iff_rel hd]
        match c, hc with
        | z :: c, _ => exact ⟨z, (follows_uncons hc').1⟩
  · rintro ⟨t, ht, (⟨_, tail, rfl, hh, hf, he⟩ | ⟨hno, rfl⟩)⟩
    · match tail, hh, hf, he with
      | y :: c, hh, hf, he =>
        simp at hh; subst hh
        exact ⟨rfl, follows_cons ht hf, endsDead_cons.2 he⟩
    · refine ⟨rfl, follows_two ht, ?_⟩
      intro x hx y hy
      simp at hx; subst hx
      rw [Bool.eq_false_iff, ne_eq, has_iff_rel hd] at hno
      exact hno ⟨y, hy⟩

theorem walkTargets_ok {d : RelDict} {rec : NodeId → Except PyErr (List (List NodeId))} {src : NodeId} (ts : List NodeId) :
    ∀ {cs}, walkTargets d rec src ts = .ok cs →
    (∀ c, c ∈ cs ↔ ∃ t ∈ ts, (has d t = true ∧ ∃ tails tail, rec t = .ok tails ∧ tail ∈ tails ∧ c = src :: tail) ∨ (has d t = false ∧ c = [src, t])) ∧
    (∀ t ∈ ts, has d t = true → ∃ tails, rec t = .ok tails) := by
  induction ts with
  | nil => intro cs h; simp [walkTargets] at h; subst h; simp
  | cons t ts ih =>
    intro cs h
    unfold walkTargets at h
    cases ht : has d t with
    | true =>
      simp only [ht, if_true] at h
      cases hr : rec t with
      | error e => rw [hr] at h; simp [bind, Except.bind] at h
      | ok tails =>
        rw [hr] at h
        simp only [bind, Except.bind] at h
        cases hw : walkTargets d rec src ts with
        | error e => rw [hw] at h; simp at h
        | ok rest =>
          rw [hw] at h
          simp only [Except.ok.injEq] at h
          subst h
          obtain ⟨ih1, ih2⟩ := ih hw
          constructor
          · intro c
            rw [List.mem_append, ih1, List.mem_map]
            constructor
            · rintro (⟨tail, h1, rfl⟩ | ⟨t', h1, h2⟩)
              · exact ⟨t, by simp, Or.inl ⟨ht, tails, tail, hr, h1, rfl⟩⟩
              · exact ⟨t', List.mem_cons_of_mem _ h1, h2⟩
            · rintro ⟨t', h1, h2⟩
              rcases List.mem_cons.1 h1 with rfl | h1
              · rcases h2 with ⟨_, tails', tail, h3, h4, rfl⟩ | ⟨h3, _⟩
                · rw [hr] at h3; simp at h3; subst h3
                  exact Or.inl ⟨tail, h4, rfl⟩
                · rw [ht] at h3; simp at h3
              · exact Or.inr ⟨t', h1, h2⟩
          · intro t' h1 h2
            rcases List.mem_cons.1 h1 with rfl | h1
            · exact ⟨tails, hr⟩
            · exact ih2 t' h1 h2
    | false =>
      simp only [ht, Bool.false_eq_true, if_false] at h
      cases hw : walkTargets d rec src ts with
      | error e => rw [hw] at h; simp [bind, Except.bind] at h
      | ok rest =>
        rw [hw] at h
        simp only [bind, Except.bind, Except.ok.injEq] at h
        subst h
        obtain ⟨ih1, ih2⟩ := ih hw
        constructor
        · intro c
          rw [List.mem_cons, ih1]
          constructor
          · rintro (rfl | ⟨t', h1, h2⟩)
            · exact ⟨t, by simp, Or.inr ⟨ht, rfl⟩⟩
            · exact ⟨t', List.mem_cons_of_mem _ h1, h2⟩
          · rintro ⟨t', h1, h2⟩
            rcases List.mem_cons.1 h1 with rfl | h1
            · rcases h2 with ⟨h3, _⟩ | ⟨_, rfl⟩
              · rw [ht] at h3; simp at h3
              · exact Or.inl rfl
            · exact Or.inr ⟨t', h1, h2⟩
        · intro t' h1 h2
          rcases List.mem_cons.1 h1 with rfl | h1
          · rw [ht] at h2; simp at h2
          · exact ih2 t' h1 h2

theorem walkTargets_total {d : RelDict} {rec : NodeId → Except PyErr (List (List NodeId))} {src : NodeId} (ts : List NodeId)
    (h : ∀ t ∈ ts, has d t = true → ∃ tails, rec t = .ok tails) : ∃ cs, walkTargets d rec src ts = .ok cs := by
  induction ts with
  | nil => exact ⟨[], rfl⟩
  | cons t ts ih =>
    obtain ⟨rest, hr⟩ := ih (fun t' ht' => h t' (List.mem_cons_of_mem _ ht'))
    unfold walkTargets
    cases ht : has d t with
    | true =>
      obtain ⟨tails, htl⟩ := h t (by simp) ht
      simp only [if_true]
      rw [htl, hr]
      exact ⟨_, rfl⟩
    | false =>
      simp only [Bool.false_eq_true, if_false]
      rw [hr]
      exact ⟨_, rfl⟩

theorem walkChain_ok {d : RelDict} (hd : RelOK d) (fuel : Nat) : ∀ {src cs}, walkChain d fuel src = .ok cs → ∀ c, c ∈ cs ↔ IsWalk d src c := by
  induction fuel with
  | zero => intro src cs h; simp [walkChain] at h
  | succ fuel ih =>
    intro src cs h c
    unfold walkChain at h
    obtain ⟨h1, h2⟩ := walkTargets_ok _ h
    rw [h1, isWalk_iff hd]
    constructor
    · rintro ⟨t, ht, (⟨h3, tails, tail, h4, h5, rfl⟩ | h3)⟩
      · exact ⟨t, ht, Or.inl ⟨h3, tail, rfl, (ih h4 tail).1 h5⟩⟩
      · exact ⟨t, ht, Or.inr h3⟩
    · rintro ⟨t, ht, (⟨h3, tail, rfl, h5⟩ | h3)⟩
      · obtain ⟨tails, htl⟩ := h2 t ht h3
        exact ⟨t, ht, Or.inl ⟨h3, tails, tail, htl, (ih htl tail).2 h5, rfl⟩⟩
      · exact ⟨t, ht, Or.inr h3⟩

/-- chains found from a source that is in the dictionary: at least one -/
theorem walkChain_ne_nil {d : RelDict} (hd : RelOK d) (fuel : Nat) : ∀ {src cs}, walkChain d fuel src = .ok cs → has d src = true → cs ≠ [] := by
  induction fuel with
  | zero => intro src cs h; simp [walkChain] at h
  | succ fuel ih =>
    intro src cs h hs
    obtain ⟨v, hv⟩ := (has_iff_rel hd src).1 hs
    have hc := walkChain_ok hd _ h
    unfold walkChain at h
    obtain ⟨h1, h2⟩ := walkTargets_ok _ h
    cases hv2 : has d v with
    | true =>
      obtain ⟨tails, htl⟩ := h2 v hv hv2
      obtain ⟨tail, ht⟩ := List.exists_mem_of_ne_nil _ (ih htl hv2)
      exact List.ne_nil_of_mem ((h1 _).2 ⟨v, hv, Or.inl ⟨hv2, tails, tail, htl, ht, rfl⟩⟩)
    | false => exact List.ne_nil_of_mem ((h1 _).2 ⟨v, hv, Or.inr ⟨hv2, rfl⟩⟩)

theorem walkChain_total {d : RelDict} (hac : Acyclic (Rel d)) (l : List NodeId) (hl : ∀ u v, Rel d u v → v ∈ l) (fuel : Nat) :
    ∀ src, relRank (Rel d) l src < fuel → ∃ cs, walkChain d fuel src = .ok cs := by
  induction fuel with
  | zero => intro src h; omega
  | succ fuel ih =>
    intro src h
    unfold walkChain
    apply walkTargets_total
    intro t ht _
    apply ih
    have := relRank_lt (l := l) hac (show Rel d src t from ht) (hl _ _ ht)
    omega

theorem walkTargets_nodup {d : RelDict} {rec : NodeId → Except PyErr (List (List NodeId))} {src : NodeId} (ts : List NodeId)
    (hhead : ∀ t tails, rec t = .ok tails → ∀ c ∈ tails, c.head? = some t) (hnd : ∀ t tails, rec t = .ok tails → tails.Nodup) :
    ∀ {cs}, walkTargets d rec src ts = .ok cs → ts.Nodup → cs.Nodup ∧ ∀ c ∈ cs, ∃ t ∈ ts, ∃ r, c = src :: t :: r := by
  induction ts with
  | nil => intro cs h _; simp [walkTargets] at h; subst h; simp
  | cons t ts ih =>
    intro cs h nd
    rw [List.nodup_cons] at nd
    unfold walkTargets at h
    cases ht : has d t with
    | true =>
      simp only [ht, if_true] at h
      cases hr : rec t with
      | error e => rw [hr] at h; simp [bind, Except.bind] at h
      | ok tails =>
        rw [hr] at h
        simp only [bind, Except.bind] at h
        cases hw : walkTargets d rec src ts with
        | error e => rw [hw] at h; simp at h
        | ok rest =>
          rw [hw] at h
          simp only [Except.ok.injEq] at h
          subst h
          obtain ⟨ih1, ih2⟩ := ih hw nd.2
          have hmap : ∀ c ∈ tails.map (fun tail => src :: tail), ∃ r, c = src :: t :: r := by
            intro c hc
            obtain ⟨tail, h1, rfl⟩ := List.mem_map.1 hc
            have := hhead t tails hr tail h1
            cases tail with
            | nil => simp at this
            | cons y r => simp at this; subst this; exact ⟨r, rfl⟩
          constructor
          · rw [List.nodup_append]
            refine ⟨?_, ih1, ?_⟩
            · have := hnd t tails hr
              rw [List.nodup_iff_pairwise_ne] at this ⊢
              rw [List.pairwise_map]
              exact this.imp (fun hne he => hne (by simpa using he))
            · intro a ha b hb hab
              subst hab
              obtain ⟨r, rfl⟩ := hmap a ha
              obtain ⟨t', ht', r', he⟩ := ih2 _ hb
              simp at he
              exact nd.1 (he.1 ▸ ht')
          · intro c hc
            rcases List.mem_append.1 hc with hc | hc
            · obtain ⟨r, rfl⟩ := hmap c hc
              exact ⟨t, by simp, r, rfl⟩
            · obtain ⟨t', h1, h2⟩ := ih2 c hc
              exact ⟨t', List.mem_cons_of_mem _ h1, h2⟩
    | false =>
      simp only [ht, Bool.false_eq_true, if_false] at h
      cases hw : walkTargets d rec src ts with
      | error e => rw [hw] at h; simp [bind, Except.bind] at h
      | ok rest =>
        rw [hw] at h
        simp only [bind, Except.bind, Except.ok.injEq] at h
        subst h
        obtain ⟨ih1, ih2⟩ := ih hw nd.2
        constructor
        · rw [List.nodup_cons]
          refine ⟨?_, ih1⟩
          intro hm
          obtain ⟨t', ht', r', he⟩ := ih2 _ hm
          simp at he
          exact nd.1 (he.1 ▸ ht')
        · intro c hc
          rcases List.mem_cons.1 hc with rfl | hc
          · exact ⟨t, by simp, [], rfl⟩
          · obtain ⟨t', h1, h2⟩ := ih2 c hc
            exact ⟨t', List.mem_cons_of_mem _ h1, h2⟩

theorem walkChain_nodup {d : RelDict} (hd : RelOK d) (fuel : Nat) : ∀ {src cs}, walkChain d fuel src = .ok cs → cs.Nodup := by
  induction fuel with
  | zero => intro src cs h; simp [walkChain] at h
  | succ fuel ih =>
    intro src cs h
    unfold walkChain at h
    refine (walkTargets_nodup _ ?_ ?_ h ?_).1
    · intro t tails ht c hc
      exact ((walkChain_ok hd fuel ht c).1 hc).1
    · intro t tails ht; exact ih ht
    · cases hs : find d src with
      | none => simp
      | some ts => exact (hd.targets src ts hs).2

/-! ### mapE, uniqueChains -/

theorem mapE_ok {α β : Type} {f : α → Except PyErr β} {xs : List α} {ys : List β} : mapE f xs = .ok ys ↔ List.Forall₂ (fun x y => f x = .ok y) xs ys := by
  induction xs generalizing ys with
  | nil => cases ys <;> simp [mapE]
  | cons x xs ih =>
    unfold mapE
    constructor
    · intro h
      cases h1 : f x with
      | error e => rw [h1] at h; simp [bind, Except.bind] at h
      | ok y =>
        rw [h1] at h
        simp only [bind, Except.bind] at h
        cases h2 : mapE f xs with
        | error e => rw [h2] at h; simp at h
        | ok zs =>
          rw [h2] at h
          simp only [Except.ok.injEq] at h
          subst h
          exact .cons h1 (ih.1 h2)
    · intro h
      cases h with
      | cons h1 h2 => rw [h1, ih.2 h2]; rfl

theorem mapE_total {α β : Type} {f : α → Except PyErr β} {xs : List α} (h : ∀ x ∈ xs, ∃ y, f x = .ok y) : ∃ ys, mapE f xs = .ok ys := by
  induction xs with
  | nil => exact ⟨[], rfl⟩
  | cons x xs ih =>
    obtain ⟨y, hy⟩ := h x (by simp)
    obtain ⟨ys, hys⟩ := ih (fun z hz => h z (List.mem_cons_of_mem _ hz))
    exact ⟨y :: ys, by unfold mapE; rw [hy, hys]; rfl⟩

/-- membership in the unique chains, in terms of (source, chains) pairs -/
theorem uniqueChains_spec (rest : List (NodeId × List (List NodeId))) : ∀ (before : List (NodeId × List (List NodeId))),
    (∀ p ∈ rest, p.2 ≠ [] ∧ ∀ c ∈ p.2, c.head? = some p.1) → ((before ++ rest).map Prod.fst).Nodup →
    ∃ r, uniqueChains (before.map Prod.snd) (rest.map Prod.snd) = .ok r ∧
      (∀ c, c ∈ r ↔ ∃ p ∈ rest, c ∈ p.2 ∧ ∀ q ∈ before ++ rest, q.1 ≠ p.1 → ∀ c' ∈ q.2, p.1 ∉ c') ∧
      ((∀ p ∈ rest, p.2.Nodup) → r.Nodup) := by
  induction rest with
  | nil => intro before _ _; exact ⟨[], rfl, by simp, by simp⟩
  | cons p rest ih =>
    intro before hne nd
    obtain ⟨src, cs⟩ := p
    have happ : (before ++ [(src, cs)]) ++ rest = before ++ (src, cs) :: rest := by simp
    obtain ⟨r, hr, hmem, hnd⟩ := ih (before ++ [(src, cs)]) (fun q hq => hne q (List.mem_cons_of_mem _ hq)) (by rw [happ]; exact nd)
    rw [happ] at hmem
    have hfirst : firstId cs = .ok src := by
      obtain ⟨h1, h2⟩ := hne (src, cs) (by simp)
      simp only at h1 h2
      cases cs with
      | nil => exact absurd rfl h1
      | cons c cs =>
        have := h2 c (by simp)
        cases c with
        | nil => simp at this
        | cons x c => simp at this; subst this; rfl
    have hoth : (before.map Prod.snd ++ rest.map Prod.snd).any (fun cl => cl.any (fun c => decide (src ∈ c))) = true ↔
        ¬ ∀ q ∈ before ++ (src, cs) :: rest, q.1 ≠ src → ∀ c' ∈ q.2, src ∉ c' := by
      have hne' : ∀ q ∈ before ++ rest, q.1 ≠ src := by
        intro q hq he
        rw [List.map_append, List.map_cons] at nd
        have := (List.nodup_middle.1 nd)
        rw [List.nodup_cons] at this
        apply this.1
        rw [← List.map_append]
        exact List.mem_map.2 ⟨q, hq, he⟩
      rw [← List.map_append]
      simp only [List.any_eq_true, List.mem_map, decide_eq_true_eq]
      constructor
      · rintro ⟨_, ⟨q, hq, rfl⟩, c, hc, hs⟩ hall
        refine hall q ?_ (hne' q hq) c hc hs
        simp only [List.mem_append, List.mem_cons] at hq ⊢
        tauto
      · intro h
        simp only [not_forall] at h
        obtain ⟨q, hq, hqs, c, hc, hs⟩ := h
        refine ⟨q.2, ⟨q, ?_, rfl⟩, c, hc, Classical.not_not.1 hs⟩
        simp only [List.mem_append, List.mem_cons] at hq ⊢
        rcases hq with h | rfl | h
        · exact Or.inl h
        · exact absurd rfl hqs
        · exact Or.inr h
    have htail : uniqueChains (before.map Prod.snd ++ [cs]) (rest.map Prod.snd) = .ok r := by
      have : before.map Prod.snd ++ [cs] = (before ++ [(src, cs)]).map Prod.snd := by simp
      rw [this]; exact hr
    have hdisj : ∀ c ∈ cs, c ∉ r := by
      intro c hc hm
      obtain ⟨p, hp, hcp, _⟩ := (hmem c).1 hm
      have h1 := (hne (src, cs) (by simp)).2 c hc
      have h2 := (hne p (List.mem_cons_of_mem _ hp)).2 c hcp
      rw [h1] at h2
      have he : src = p.1 := Option.some.inj h2
      rw [List.map_append, List.map_cons] at nd
      have := (List.nodup_middle.1 nd)
      rw [List.nodup_cons] at this
      apply this.1
      rw [← List.map_append]
      exact List.mem_map.2 ⟨p, List.mem_append_right _ hp, he.symm⟩
    simp only [List.map_cons]
    unfold uniqueChains
    rw [hfirst, htail]
    simp only [bind, Except.bind]
    by_cases ho : ∀ q ∈ before ++ (src, cs) :: rest, q.1 ≠ src → ∀ c' ∈ q.2, src ∉ c'
    · rw [if_neg (by rw [hoth]; exact fun h => h ho)]
      refine ⟨_, rfl, ?_, ?_⟩
      · intro c
        rw [List.mem_append, hmem]
        constructor
        · rintro (h | ⟨p, hp, h1, h2⟩)
          · exact ⟨(src, cs), by simp, h, ho⟩
          · exact ⟨p, List.mem_cons_of_mem _ hp, h1, h2⟩
        · rintro ⟨p, hp, h1, h2⟩
          rcases List.mem_cons.1 hp with rfl | hp
          · exact Or.inl h1
          · exact Or.inr ⟨p, hp, h1, h2⟩
      · intro hall
        rw [List.nodup_append]
        refine ⟨hall (src, cs) (by simp), hnd (fun q hq => hall q (List.mem_cons_of_mem _ hq)), ?_⟩
        intro a ha b hb hab
        subst hab
        exact hdisj a ha hb
    · rw [if_pos (hoth.2 ho)]
      refine ⟨r, rfl, ?_, fun hall => hnd (fun q hq => hall q (List.mem_cons_of_mem _ hq))⟩
      intro c
      rw [hmem]
      constructor
      · rintro ⟨p, hp, h⟩; exact ⟨p, List.mem_cons_of_mem _ hp, h⟩
      · rintro ⟨p, hp, h1, h2⟩
        rcases List.mem_cons.1 hp with rfl | hp
        · exact absurd h2 ho
        · exact ⟨p, hp, h1, h2⟩

end DG
end Dg
