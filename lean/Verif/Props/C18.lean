import Verif.Lemmas.Chains
import Verif.Props.C11
import Verif.Spec.Offsets

/-! C18, C19: pointing chains. -/

namespace Dg
open Dict
namespace DG

theorem mem_collect {α β : Type} {f : α → Except PyErr (Option β)} {xs : List α} {y : β} (h : y ∈ (Gen.collect f xs).1) :
    ∃ x ∈ xs, f x = .ok (some y) := by
  induction xs with
  | nil => simp [Gen.collect] at h
  | cons x xs ih =>
    unfold Gen.collect at h
    split at h
    · simp at h
    · obtain ⟨x', h1, h2⟩ := ih h; exact ⟨x', List.mem_cons_of_mem _ h1, h2⟩
    · rename_i y' hy'
      rcases List.mem_cons.1 h with rfl | h
      · exact ⟨x, by simp, hy'⟩
      · obtain ⟨x', h1, h2⟩ := ih h; exact ⟨x', List.mem_cons_of_mem _ h1, h2⟩

theorem selectEdges_sound {g : DG} (wf : WF g) {conds : List Cond} {u v : NodeId} {k : Key} {a : Attrs} (h : (u, v, k, a) ∈ (g.selectEdges conds).1) :
    g.edgeAttrs u v k = some a ∧ allConds a conds = .ok true := by
  unfold selectEdges at h
  obtain ⟨x, hx, hf⟩ := mem_collect h
  unfold yieldIf at hf
  cases hc : allConds x.2.2.2 conds with
  | error e => rw [hc] at hf; simp [bind, Except.bind] at hf
  | ok b =>
    rw [hc] at hf
    cases b
    · simp [bind, Except.bind] at hf
    · simp only [bind, Except.bind, if_true, Except.ok.injEq, Option.some.injEq] at hf
      subst hf
      exact ⟨(mem_edges_iff wf _ _ _ _).1 hx, hc⟩

theorem cond_attrIs {a : Attrs} {k v : String} (h : Cond.eval (.attrIs k v) a = .ok true) : find a k = some (.atom (.str v)) := by
  unfold Cond.eval at h
  split at h
  · simp only at h
    cases hf : find a k with
    | none => rw [hf] at h; simp at h
    | some x => rw [hf] at h; simp at h; rw [h]
  · simp at h

theorem cond_inLayers {a : Attrs} {l : String} (hl : LayeredNE a) (h : Cond.eval (.inLayers l) a = .ok true) : AttrsLayer a (.str l) := by
  obtain ⟨xs, hx, _⟩ := hl
  unfold Cond.eval at h
  split at h
  · simp [layersEntry, hx, bind, Except.bind, pyIn] at h
    exact ⟨xs, hx, h⟩
  · simp at h

theorem allConds_cons {a : Attrs} {c : Cond} {cs : List Cond} (h : allConds a (c :: cs) = .ok true) : c.eval a = .ok true ∧ allConds a cs = .ok true := by
  unfold allConds at h
  cases hc : c.eval a with
  | error e => rw [hc] at h; simp [bind, Except.bind] at h
  | ok b =>
    rw [hc] at h
    cases b
    · simp [bind, Except.bind] at h
    · simp only [bind, Except.bind, if_true] at h
      exact ⟨rfl, h⟩

/-- the pointing relations that were selected are pointing relations of the layer -/
theorem select_pointing_sound {g : DG} (hr : Reachable g) {layer : Option String} {u v : NodeId} {k : Key} {a : Attrs}
    (h : (u, v, k, a) ∈ (g.selectEdgesBy layer (some pointingRelation)).1) : g.PointsTo layer u v := by
  cases layer with
  | none =>
    obtain ⟨h1, h2⟩ := selectEdges_sound hr.inv.wf h
    exact ⟨k, a, h1, cond_attrIs (allConds_cons h2).1, by simp⟩
  | some l =>
    obtain ⟨h1, h2⟩ := selectEdges_sound hr.inv.wf h
    obtain ⟨h3, h4⟩ := allConds_cons h2
    refine ⟨k, a, h1, cond_attrIs h3, ?_⟩
    intro l' hl'
    obtain rfl := Option.some.inj hl'
    exact cond_inLayers (hr.inv.edges _ _ _ _ h1) (allConds_cons h4).1

/-- the (source, chains) pairs computed for the relation dictionary -/
theorem getPointingChains_ok {fuel : Nat} {g : DG} {layer : Option String} {r : List (List NodeId)}
    (h : getPointingChains fuel g layer = .ok r) :
    ∃ (d : RelDict) (all : List (NodeId × List (List NodeId))), RelOK d ∧
      (∀ u v, Rel d u v ↔ ∃ k a, (u, v, k, a) ∈ (g.selectEdgesBy layer (some pointingRelation)).1) ∧
      all.map Prod.fst = keys d ∧ (∀ p ∈ all, walkChain d fuel p.1 = .ok p.2) ∧ uniqueChains [] (all.map Prod.snd) = .ok r := by
  unfold getPointingChains at h
  split at h
  · simp at h
  · rename_i es hes
    simp only at h
    cases hm : mapE (walkChain (buildRel (es.map (fun e => (e.1, e.2.1)))) fuel) (keys (buildRel (es.map (fun e => (e.1, e.2.1))))) with
    | error e => rw [hm] at h; simp [bind, Except.bind] at h
    | ok all =>
      rw [hm] at h
      simp only [bind, Except.bind] at h
      obtain ⟨h1, h2⟩ := buildRel_spec (es.map (fun e => (e.1, e.2.1)))
      have hf := mapE_ok.1 hm
      have hlen := hf.length_eq
      refine ⟨_, (keys (buildRel (es.map (fun e => (e.1, e.2.1))))).zip all, h1, ?_, ?_, ?_, ?_⟩
      · intro u v
        rw [h2, hes]
        simp only [List.mem_map, Prod.mk.injEq]
        constructor
        · rintro ⟨⟨u', v', k, a⟩, he, rfl, rfl⟩; exact ⟨k, a, he⟩
        · rintro ⟨k, a, he⟩; exact ⟨_, he, rfl, rfl⟩
      · exact List.map_fst_zip (by omega)
      · rintro ⟨x, y⟩ hxy
        have := List.forall₂_iff_zip.1 hf
        exact this.2 hxy
      · rw [List.map_snd_zip (by omega)]; exact h

/-- **C18**.  On every graph built with the API (cyclic or not), for every layer filter and recursion limit: if `get_pointing_chains` returns, every chain has at least two elements and
each element is connected to the next by a pointing relation of the requested layer. -/
theorem c18_chains_follow_pointing_relations (g : DG) (hr : Reachable g) (layer : Option String) (fuel : Nat) (r : List (List NodeId))
    (h : getPointingChains fuel g layer = .ok r) : ∀ c ∈ r, Follows (g.PointsTo layer) c := by
  obtain ⟨d, all, hd, hrel, hkeys, hwalk, hu⟩ := getPointingChains_ok h
  have hne : ∀ p ∈ all, p.2 ≠ [] ∧ ∀ c ∈ p.2, c.head? = some p.1 := by
    intro p hp
    have hk : p.1 ∈ keys d := by rw [← hkeys]; exact List.mem_map_of_mem hp
    refine ⟨walkChain_ne_nil hd fuel (hwalk p hp) ((has_iff d p.1).2 hk), ?_⟩
    intro c hc
    exact ((walkChain_ok hd fuel (hwalk p hp) c).1 hc).1
  obtain ⟨r', hr', hmem, _⟩ := uniqueChains_spec all [] hne (by simpa [hkeys] using hd.nodup)
  rw [List.map_nil, hu] at hr'
  obtain rfl : r = r' := Except.ok.inj hr'
  intro c hc
  obtain ⟨p, hp, hcp, _⟩ := (hmem c).1 hc
  obtain ⟨_, hf, _⟩ := (walkChain_ok hd fuel (hwalk p hp) c).1 hcp
  refine ⟨hf.1, ?_⟩
  intro pre x y post he
  obtain ⟨k, a, hka⟩ := (hrel x y).1 (hf.2 pre x y post he)
  exact select_pointing_sound hr hka

/-- **C19**.  If every edge has an `edge_type`, the pointing relations of the layer form no cycle and the recursion limit exceeds the number of nodes,
`get_pointing_chains` returns, and a list of nodes is among the chains -- exactly once -- iff it follows pointing relations from a node nothing points to
up to a node that points nowhere. -/
theorem c19_chains_are_the_maximal_paths (g : DG) (hr : Reachable g) (layer : Option String) (hp : ∀ l, layer = some l → plain l = true)
    (hty : g.Typed) (hac : Acyclic (g.PointsTo layer)) (fuel : Nat) (hf : g.nodes.length < fuel) :
    ∃ r, getPointingChains fuel g layer = .ok r ∧ r.Nodup ∧
      ∀ c, c ∈ r ↔ Follows (g.PointsTo layer) c ∧ StartsFresh (g.PointsTo layer) c ∧ EndsDead (g.PointsTo layer) c := by
  have wf := hr.inv.wf
  obtain ⟨es, hes, _, _, hmem⟩ := c11_select_edges_by g hr layer (some pointingRelation)
    (by
      rintro s (h | h)
      · exact hp s h
      · obtain rfl := Option.some.inj h; decide)
    (fun _ => hty)
  obtain ⟨hd, hrel0⟩ := buildRel_spec (es.map (fun e => (e.1, e.2.1)))
  generalize hdd : buildRel (es.map (fun e => (e.1, e.2.1))) = d at hd hrel0
  have hrel : Rel d = g.PointsTo layer := by
    funext u v
    rw [hrel0]
    simp only [List.mem_map, Prod.mk.injEq, eq_iff_iff]
    constructor
    · rintro ⟨⟨u', v', k, a⟩, he, rfl, rfl⟩
      obtain ⟨h1, h2, h3⟩ := (hmem _ _ _ _).1 he
      exact ⟨k, a, h1, h3 _ rfl, h2⟩
    · rintro ⟨k, a, h1, h2, h3⟩
      refine ⟨(u, v, k, a), (hmem _ _ _ _).2 ⟨h1, h3, ?_⟩, rfl, rfl⟩
      intro t ht
      obtain rfl := Option.some.inj ht
      exact h2
  have hnode : ∀ u v, Rel d u v → v ∈ keys g.nodes := by
    intro u v h
    rw [hrel] at h
    obtain ⟨k, a, h1, _⟩ := h
    unfold edgeAttrs at h1
    cases hk : g.kd? u v with
    | none => rw [hk] at h1; simp at h1
    | some kd => exact wf.target u v kd hk
  have hac' : Acyclic (Rel d) := by rw [hrel]; exact hac
  have htot : ∀ src, ∃ cs, walkChain d fuel src = .ok cs := by
    intro src
    apply walkChain_total hac' (keys g.nodes) hnode
    have := relRank_le (Rel d) (keys g.nodes) src
    simp only [keys, List.length_map] at this
    simp only [keys]
    omega
  obtain ⟨allc, hall⟩ := mapE_total (f := walkChain d fuel) (xs := keys d) (fun x _ => htot x)
  have hforall := mapE_ok.1 hall
  have hlen := hforall.length_eq
  let all := (keys d).zip allc
  have hkeys : all.map Prod.fst = keys d := List.map_fst_zip (by omega)
  have hsnd : all.map Prod.snd = allc := List.map_snd_zip (by omega)
  have hwalk : ∀ p ∈ all, walkChain d fuel p.1 = .ok p.2 := by
    rintro ⟨x, y⟩ hxy
    exact (List.forall₂_iff_zip.1 hforall).2 hxy
  have hne : ∀ p ∈ all, p.2 ≠ [] ∧ ∀ c ∈ p.2, c.head? = some p.1 := by
    intro p hp'
    have hk : p.1 ∈ keys d := by rw [← hkeys]; exact List.mem_map_of_mem hp'
    refine ⟨walkChain_ne_nil hd fuel (hwalk p hp') ((has_iff d p.1).2 hk), ?_⟩
    intro c hc
    exact ((walkChain_ok hd fuel (hwalk p hp') c).1 hc).1
  obtain ⟨r, hr', hmemr, hnd⟩ := uniqueChains_spec all [] hne (by simpa [hkeys] using hd.nodup)
  refine ⟨r, ?_, hnd (fun p hp' => walkChain_nodup hd fuel (hwalk p hp')), ?_⟩
  · unfold getPointingChains
    rw [hes]
    simp only
    rw [hdd, hall]
    simp only [bind, Except.bind]
    rw [← hsnd]; exact hr'
  · intro c
    rw [hmemr]
    simp only [List.nil_append]
    -- every key of the dictionary has its pair
    have hpair : ∀ u, (∃ v, Rel d u v) → ∃ cs, (u, cs) ∈ all ∧ walkChain d fuel u = .ok cs := by
      intro u hu
      have hk : u ∈ keys d := (has_iff d u).1 ((has_iff_rel hd u).2 hu)
      rw [← hkeys] at hk
      obtain ⟨⟨x, cs⟩, hp', rfl⟩ := List.mem_map.1 hk
      exact ⟨cs, hp', hwalk _ hp'⟩
    rw [← hrel]
    -- elements of a walk are reachable from its start
    have hreach : ∀ (c : List NodeId) (u x : NodeId), Follows (Rel d) c → c.head? = some u → x ∈ c → x = u ∨ Relation.TransGen (Rel d) u x := by
      intro c
      induction c with
      | nil => intro u x hf' hh; simp at hh
      | cons a c ih =>
        intro u x hf' hh hx
        simp at hh; subst hh
        rcases List.mem_cons.1 hx with rfl | hx
        · exact Or.inl rfl
        · cases c with
          | nil => simp at hx
          | cons b c =>
            obtain ⟨h1, h2⟩ := follows_uncons hf'
            by_cases hc : c = []
            · subst hc; simp at hx; subst hx; exact Or.inr (.single h1)
            · rcases ih b x (h2 hc) rfl hx with rfl | h
              · exact Or.inr (.single h1)
              · exact Or.inr (.head h1 h)
    constructor
    · rintro ⟨⟨src, cs⟩, hp', hc, huniq⟩
      obtain ⟨h1, h2, h3⟩ := (walkChain_ok hd fuel (hwalk _ hp') c).1 hc
      refine ⟨h2, ?_, h3⟩
      intro x hx y hyx
      simp only at h1
      rw [h1] at hx
      obtain rfl := Option.some.inj hx
      have hsr : ∃ v, Rel d src v := by
        have hk : src ∈ keys d := by rw [← hkeys]; exact List.mem_map.2 ⟨_, hp', rfl⟩
        exact (has_iff_rel hd src).1 ((has_iff d src).2 hk)
      obtain ⟨ycs, hy1, hy2⟩ := hpair y ⟨src, hyx⟩
      have hchain : IsWalk d y (y :: c) := by
        rw [isWalk_iff hd]
        exact ⟨src, hyx, Or.inl ⟨(has_iff_rel hd src).2 hsr, c, rfl, h1, h2, h3⟩⟩
      have hin := (walkChain_ok hd fuel hy2 _).2 hchain
      have hys : y ≠ src := by rintro rfl; exact hac' y (.single hyx)
      refine huniq (y, ycs) hy1 hys _ hin ?_
      exact List.mem_cons_of_mem _ (List.mem_of_head? h1)
    · rintro ⟨h1, h2, h3⟩
      match c, h1, h2, h3 with
      | [], h1, _, _ => have := h1.1; simp at this
      | src :: c, h1, h2, h3 =>
        have hout : ∃ v, Rel d src v := by
          cases c with
          | nil => have := h1.1; simp at this
          | cons b c => exact ⟨b, (follows_uncons h1).1⟩
        obtain ⟨cs, hp', hw⟩ := hpair src hout
        refine ⟨(src, cs), hp', (walkChain_ok hd fuel hw _).2 ⟨rfl, h1, h3⟩, ?_⟩
        rintro ⟨u, us⟩ hq hne' c' hc' hs
        obtain ⟨g1, g2, _⟩ := (walkChain_ok hd fuel (hwalk _ hq) c').1 hc'
        rcases hreach c' u src g2 g1 hs with h | h
        · exact hne' h.symm
        · rcases (Relation.TransGen.tail'_iff.1 h) with ⟨w, _, hw'⟩
          exact h2 src rfl w hw'

/-- **C19 (every relation is covered)**.  Under the same hypotheses every pointing relation is a step of some returned chain. -/
theorem c19_every_relation_in_some_chain (g : DG) (hr : Reachable g) (layer : Option String) (hp : ∀ l, layer = some l → plain l = true)
    (hty : g.Typed) (hac : Acyclic (g.PointsTo layer)) (fuel : Nat) (hf : g.nodes.length < fuel) (r : List (List NodeId))
    (h : getPointingChains fuel g layer = .ok r) (u v : NodeId) (huv : g.PointsTo layer u v) :
    ∃ c ∈ r, ∃ pre post, c = pre ++ u :: v :: post := by
  obtain ⟨r', hr', _, hmem⟩ := c19_chains_are_the_maximal_paths g hr layer hp hty hac fuel hf
  rw [h] at hr'
  obtain rfl : r = r' := Except.ok.inj hr'
  have wf := hr.inv.wf
  have hnode : ∀ u v, g.PointsTo layer u v → v ∈ keys g.nodes ∧ u ∈ keys g.nodes := by
    rintro u v ⟨k, a, h1, _⟩
    unfold edgeAttrs at h1
    cases hk : g.kd? u v with
    | none => rw [hk] at h1; simp at h1
    | some kd => exact ⟨wf.target u v kd hk, kd?_source wf hk⟩
  -- extend forwards
  have fwd : ∀ n x, relRank (g.PointsTo layer) (keys g.nodes) x ≤ n → ∃ c, c.head? = some x ∧
      (2 ≤ c.length → Follows (g.PointsTo layer) c) ∧ EndsDead (g.PointsTo layer) c ∧ c ≠ [] := by
    intro n
    induction n with
    | zero =>
      intro x hx
      refine ⟨[x], rfl, by simp, ?_, by simp⟩
      intro z hz y hy
      simp at hz; subst hz
      have := relRank_lt (l := keys g.nodes) hac hy (hnode _ _ hy).1
      omega
    | succ n ih =>
      intro x hx
      by_cases hex : ∃ y, g.PointsTo layer x y
      · obtain ⟨y, hy⟩ := hex
        have := relRank_lt (l := keys g.nodes) hac hy (hnode _ _ hy).1
        obtain ⟨c, h1, h2, h3, h4⟩ := ih y (by omega)
        match c, h1, h2, h3 with
        | [z], h1, h2, h3 =>
          simp at h1; subst h1
          exact ⟨[x, z], rfl, fun _ => follows_two hy, endsDead_cons.2 h3, by simp⟩
        | z :: w :: c, h1, h2, h3 =>
          simp at h1; subst h1
          exact ⟨x :: z :: w :: c, rfl, fun _ => follows_cons hy (h2 (by simp)), endsDead_cons.2 h3, by simp⟩
      · refine ⟨[x], rfl, by simp, ?_, by simp⟩
        intro z hz y hy
        simp at hz; subst hz
        exact hex ⟨y, hy⟩
  -- extend backwards (the reversed relation is acyclic, too)
  have hacR : Acyclic (fun a b => g.PointsTo layer b a) := by
    intro x hx
    apply hac x
    exact Relation.TransGen.swap x x hx
  have bwd : ∀ n x, relRank (fun a b => g.PointsTo layer b a) (keys g.nodes) x ≤ n → ∀ c, Follows (g.PointsTo layer) (x :: c) →
      EndsDead (g.PointsTo layer) (x :: c) → ∃ pre, Follows (g.PointsTo layer) (pre ++ x :: c) ∧ EndsDead (g.PointsTo layer) (pre ++ x :: c) ∧
        StartsFresh (g.PointsTo layer) (pre ++ x :: c) := by
    intro n
    induction n with
    | zero =>
      intro x hx c h1 h2
      refine ⟨[], h1, h2, ?_⟩
      intro z hz y hy
      simp at hz; subst hz
      have := relRank_lt (l := keys g.nodes) hacR (u := x) (v := y) hy (hnode _ _ hy).2
      omega
    | succ n ih =>
      intro x hx c h1 h2
      by_cases hex : ∃ y, g.PointsTo layer y x
      · obtain ⟨y, hy⟩ := hex
        have := relRank_lt (l := keys g.nodes) hacR (u := x) (v := y) hy (hnode _ _ hy).2
        obtain ⟨pre, p1, p2, p3⟩ := ih y (by omega) (x :: c) (follows_cons hy h1) (endsDead_cons.2 h2)
        exact ⟨pre ++ [y], by simpa using p1, by simpa using p2, by simpa using p3⟩
      · refine ⟨[], h1, h2, ?_⟩
        intro z hz y hy
        simp at hz; subst hz
        exact hex ⟨y, hy⟩
  obtain ⟨c, f1, f2, f3, f4⟩ := fwd _ v (Nat.le_refl _)
  have hcv : ∃ post, c = v :: post := by
    cases c with
    | nil => exact absurd rfl f4
    | cons z post => simp at f1; subst f1; exact ⟨post, rfl⟩
  obtain ⟨post, rfl⟩ := hcv
  have hfu : Follows (g.PointsTo layer) (u :: v :: post) := by
    cases post with
    | nil => exact follows_two huv
    | cons w post => exact follows_cons huv (f2 (by simp))
  obtain ⟨pre, p1, p2, p3⟩ := bwd _ u (Nat.le_refl _) (v :: post) hfu (endsDead_cons.2 f3)
  exact ⟨_, (hmem _).2 ⟨p1, p3, p2⟩, pre, post, rfl⟩

/-- **C19 (cycles)**.  Conversely, if some pointing relations form a cycle, `get_pointing_chains` does not return, whatever the recursion limit. -/
theorem c19_diverges_on_cycles (g : DG) (hr : Reachable g) (layer : Option String) (hp : ∀ l, layer = some l → plain l = true)
    (hty : g.Typed) (x : NodeId) (hx : Relation.TransGen (g.PointsTo layer) x x) (fuel : Nat) (r : List (List NodeId)) :
    getPointingChains fuel g layer ≠ .ok r := by
  intro h
  obtain ⟨d, all, hd, hrel, hkeys, hwalk, _⟩ := getPointingChains_ok h
  obtain ⟨es, hes, _, _, hmem⟩ := c11_select_edges_by g hr layer (some pointingRelation)
    (by
      rintro s (h | h)
      · exact hp s h
      · obtain rfl := Option.some.inj h; decide)
    (fun _ => hty)
  have hR : ∀ u v, g.PointsTo layer u v → Rel d u v := by
    rintro u v ⟨k, a, h1, h2, h3⟩
    rw [hrel, hes]
    refine ⟨k, a, (hmem _ _ _ _).2 ⟨h1, h3, ?_⟩⟩
    intro t ht
    obtain rfl := Option.some.inj ht
    exact h2
  have hxx : Relation.TransGen (Rel d) x x := Relation.TransGen.mono hR x x hx
  have hdiv : ∀ fuel y cs, Relation.TransGen (Rel d) y x → walkChain d fuel y ≠ .ok cs := by
    intro fuel
    induction fuel with
    | zero => intro y cs _; simp [walkChain]
    | succ fuel ih =>
      intro y cs hy hw
      unfold walkChain at hw
      obtain ⟨_, h2⟩ := walkTargets_ok _ hw
      have hstep : ∃ z, Rel d y z ∧ Relation.TransGen (Rel d) z x := by
        rcases Relation.TransGen.head'_iff.1 hy with ⟨z, hz, hzx⟩
        rcases Relation.reflTransGen_iff_eq_or_transGen.1 hzx with rfl | h
        · exact ⟨_, hz, hxx⟩
        · exact ⟨z, hz, h⟩
      obtain ⟨z, hz, hzx⟩ := hstep
      have hout : ∃ w, Rel d z w := by
        rcases Relation.TransGen.head'_iff.1 hzx with ⟨w, hw', _⟩
        exact ⟨w, hw'⟩
      obtain ⟨tails, htl⟩ := h2 z hz ((has_iff_rel hd z).2 hout)
      exact ih z tails hzx htl
  have hxk : x ∈ keys d := by
    rcases Relation.TransGen.head'_iff.1 hxx with ⟨w, hw', _⟩
    exact (has_iff d x).1 ((has_iff_rel hd x).2 ⟨w, hw'⟩)
  rw [← hkeys] at hxk
  obtain ⟨p, hp', rfl⟩ := List.mem_map.1 hxk
  exact hdiv fuel p.1 p.2 hxx (hwalk p hp')

/-- the example of the docstring: a points to b, b to c, x to c -/
def sampleChains : DG :=
  (DG.init "" "d" none).run [
    .addEdge (.str "b") (.str "c") (.atom .none) none .none [("edge_type", .atom (.str "points_to"))],
    .addEdge (.str "a") (.str "b") (.atom .none) none .none [("edge_type", .atom (.str "points_to"))],
    .addEdge (.str "x") (.str "c") (.atom .none) none .none [("edge_type", .atom (.str "points_to"))],
    .addEdge (.str "x") (.str "a") (.atom .none) none .none [("edge_type", .atom (.str "spans"))]]

theorem acyclic_of_lt {R : NodeId → NodeId → Prop} (r : NodeId → Nat) (h : ∀ u v, R u v → r v < r u) : Acyclic R := by
  have : ∀ u v, Relation.TransGen R u v → r v < r u := by
    intro u v hs
    induction hs with
    | single e => exact h _ _ e
    | tail _ e ih => have := h _ _ e; omega
  intro u hs
  exact absurd (this _ _ hs) (Nat.lt_irrefl _)

example : Reachable sampleChains ∧ sampleChains.Typed ∧ Acyclic (sampleChains.PointsTo none) ∧ sampleChains.PointsTo none (.str "b") (.str "c") ∧
    getPointingChains 9 sampleChains none = .ok [[.str "a", .str "b", .str "c"], [.str "x", .str "c"]] := by
  have hr : Reachable sampleChains := ⟨"", "d", none, _, by decide, rfl⟩
  have wf := hr.inv.wf
  refine ⟨hr, ?_, ?_, ?_, by decide +kernel⟩
  · intro u v k a h
    have m1 := (mem_edges_iff wf _ _ _ _).2 h
    have key : ∀ e ∈ sampleChains.edges, (find e.2.2.2 "edge_type").isSome = true := by decide
    exact Option.isSome_iff_exists.1 (key _ m1)
  · refine acyclic_of_lt (fun n => if n = .str "a" then 2 else if n = .str "c" then 0 else 1) ?_
    rintro u v ⟨k, a, h1, h2, _⟩
    have m1 := (mem_edges_iff wf _ _ _ _).2 h1
    have key : ∀ e ∈ sampleChains.edges, find e.2.2.2 "edge_type" = some (.atom (.str "points_to")) →
      (fun (n : NodeId) => if n = .str "a" then 2 else if n = .str "c" then 0 else 1) e.2.1 <
      (fun (n : NodeId) => if n = .str "a" then 2 else if n = .str "c" then 0 else 1) e.1 := by decide
    exact key _ m1 h2
  · refine ⟨.int 0, [("edge_type", .atom (.str "points_to")), ("layers", .set [.str "d"])], by decide, by decide, by simp⟩

end DG
end Dg
