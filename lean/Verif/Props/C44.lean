import Verif.Model.Statistics
import Verif.Lemmas.Edges
import Verif.Lemmas.GraphInv
import Verif.Lemmas.GraphStep
import Verif.Spec.Layers
import Batteries.Lean.Except
import Mathlib.Data.Set.Card

/-! C44: node_statistics and edge_statistics. -/

namespace Dg
open Dict

/-! ### counters -/

theorem find_countOne {K : Type} [DecidableEq K] (c : Dict K Nat) (x y : K) : (find (countOne c x) y).getD 0 = (find c y).getD 0 + if x = y then 1 else 0 := by
  unfold countOne
  rw [find_put]
  by_cases h : x = y
  · subst h; simp
  · have : ¬ y = x := fun h' => h h'.symm
    simp [h, this]

theorem find_countAll {K : Type} [DecidableEq K] (xs : List K) : ∀ (c : Dict K Nat) (y : K), (find (countAll c xs) y).getD 0 = (find c y).getD 0 + xs.count y := by
  induction xs with
  | nil => intro c y; simp [countAll]
  | cons x xs ih =>
    intro c y
    show (find (countAll (countOne c x) xs) y).getD 0 = _
    rw [ih, find_countOne, List.count_cons]
    by_cases h : x = y
    · subst h; simp; omega
    · simp [h]

theorem mem_keys_countAll {K : Type} [DecidableEq K] (xs : List K) : ∀ (c : Dict K Nat) (y : K), y ∈ keys (countAll c xs) ↔ y ∈ keys c ∨ y ∈ xs := by
  induction xs with
  | nil => intro c y; simp [countAll]
  | cons x xs ih =>
    intro c y
    show y ∈ keys (countAll (countOne c x) xs) ↔ _
    rw [ih]
    unfold countOne
    rw [mem_keys_put]
    simp only [List.mem_cons]
    tauto

/-! ### the loop -/

open Classical in
theorem countLoop_spec (as : List Attrs) : ∀ (c : Counts), (∀ a ∈ as, (keys a).Nodup ∧ ∃ xs, find a "layers" = some (.set xs)) →
    ∃ c', countLoop c as = .ok c' ∧
      (∀ l, (find c'.layers l).getD 0 = (find c.layers l).getD 0 + (as.filter (fun a => decide (∃ xs, find a "layers" = some (.set xs) ∧ l ∈ xs))).length) ∧
      (∀ x, (find c'.attribs x).getD 0 = (find c.attribs x).getD 0 + (as.filter (fun a => decide (x ∈ keys a))).length) ∧
      (∀ l, l ∈ keys c'.layers ↔ l ∈ keys c.layers ∨ ∃ a ∈ as, ∃ xs, find a "layers" = some (.set xs) ∧ l ∈ xs) ∧
      (∀ x, x ∈ keys c'.attribs ↔ x ∈ keys c.attribs ∨ ∃ a ∈ as, x ∈ keys a) := by
  induction as with
  | nil => intro c _; exact ⟨c, rfl, by simp, by simp, by simp, by simp⟩
  | cons a as ih =>
    intro c h
    obtain ⟨nd, xs, hx⟩ := h a (by simp)
    have hc : countAttrs c a = .ok ⟨countAll c.layers xs.dedup, countAll c.attribs (keys a)⟩ := by
      unfold countAttrs iterLayers; rw [hx]; rfl
    obtain ⟨c', h1, h2, h3, h4, h5⟩ := ih ⟨countAll c.layers xs.dedup, countAll c.attribs (keys a)⟩ (fun b hb => h b (List.mem_cons_of_mem _ hb))
    refine ⟨c', by simp only [countLoop, hc, bind, Except.bind]; exact h1, ?_, ?_, ?_, ?_⟩
    · intro l
      rw [h2, find_countAll, (List.nodup_dedup xs).count, List.filter_cons]
      have : (∃ ys, find a "layers" = some (.set ys) ∧ l ∈ ys) ↔ l ∈ xs.dedup := by
        rw [List.mem_dedup, hx]
        constructor
        · rintro ⟨ys, hy, hl⟩; injection hy with hy; injection hy with hy; subst hy; exact hl
        · intro hl; exact ⟨xs, rfl, hl⟩
      by_cases hl : l ∈ xs.dedup
      · rw [if_pos hl, if_pos (decide_eq_true (this.2 hl))]; simp only [List.length_cons]; omega
      · rw [if_neg hl, if_neg (by simp only [decide_eq_true_eq]; exact fun h => hl (this.1 h))]; omega
    · intro x
      rw [h3, find_countAll, nd.count, List.filter_cons]
      by_cases hx : x ∈ keys a
      · rw [if_pos hx, if_pos (decide_eq_true hx)]; simp only [List.length_cons]; omega
      · rw [if_neg hx, if_neg (by simpa using hx)]; omega
    · intro l
      rw [h4, mem_keys_countAll, List.mem_dedup]
      constructor
      · rintro ((h | h) | ⟨b, hb, h⟩)
        · exact Or.inl h
        · exact Or.inr ⟨a, by simp, xs, hx, h⟩
        · exact Or.inr ⟨b, List.mem_cons_of_mem _ hb, h⟩
      · rintro (h | ⟨b, hb, ys, hy, h⟩)
        · exact Or.inl (Or.inl h)
        · rcases List.mem_cons.1 hb with rfl | hb
          · rw [hx] at hy; injection hy with hy; injection hy with hy; subst hy; exact Or.inl (Or.inr h)
          · exact Or.inr ⟨b, hb, ys, hy, h⟩
    · intro x
      rw [h5, mem_keys_countAll]
      simp only [List.mem_cons, exists_eq_or_imp]
      tauto

/-! ### cardinalities -/

theorem length_filter_eq_ncard {α β : Type} [DecidableEq β] (xs : List α) (key : α → β) (nd : (xs.map key).Nodup) (p : α → Bool) (S : Set β)
    (hS : ∀ b, b ∈ S ↔ ∃ x ∈ xs, key x = b ∧ p x = true) : (xs.filter p).length = S.ncard := by
  have h1 : S = ↑(((xs.filter p).map key).toFinset) := by
    ext b
    rw [hS]
    simp only [List.coe_toFinset, List.mem_map, List.mem_filter, Set.mem_setOf_eq]
    constructor
    · rintro ⟨x, h1, h2, h3⟩; exact ⟨x, ⟨h1, h3⟩, h2⟩
    · rintro ⟨x, ⟨h1, h3⟩, h2⟩; exact ⟨x, h1, h2, h3⟩
  have h2 : ((xs.filter p).map key).Nodup := (List.Sublist.map key List.filter_sublist).nodup nd
  rw [h1, Set.ncard_coe_finset, List.toFinset_card_of_nodup h2, List.length_map]

namespace DG

/-- **C44 (nodes)**.  For every document graph whose nodes carry layer sets (C01), node_statistics counts for each layer exactly the nodes that belong to it
and for each attribute name exactly the nodes that have it; layers and attribute names that do not occur are not listed. -/
theorem c44_node_statistics (g : DG) (hr : Reachable g) (hl : NodesLayered False g) :
    ∃ c, nodeStatistics g = .ok c ∧
      (∀ l, (find c.layers l).getD 0 = Set.ncard {n | g.NodeLayer n l}) ∧ (∀ x, (find c.attribs x).getD 0 = Set.ncard {n | (g.nodeAttr n x).isSome}) ∧
      (∀ l, l ∈ keys c.layers ↔ ∃ n, g.NodeLayer n l) ∧ (∀ x, x ∈ keys c.attribs ↔ ∃ n, (g.nodeAttr n x).isSome) := by
  have nd := hr.inv.wf.nodesNodup
  have hm : ∀ n a, (n, a) ∈ g.nodes ↔ g.nodeAttrs n = some a := fun n a => mem_iff_find nd n a
  obtain ⟨c, h1, h2, h3, h4, h5⟩ := countLoop_spec (vals g.nodes) ⟨[], []⟩ (by
    intro a ha
    obtain ⟨p, hp, rfl⟩ := List.mem_map.1 ha
    have hp' := (hm p.1 p.2).1 hp
    refine ⟨hr.inv.attrs.node _ _ hp', ?_⟩
    obtain ⟨xs, hx, _⟩ := hl _ _ hp'
    exact ⟨xs, hx⟩)
  refine ⟨c, h1, ?_, ?_, ?_, ?_⟩
  · intro l
    rw [h2 l]
    simp only [find, Option.getD_none, Nat.zero_add]
    rw [show vals g.nodes = g.nodes.map Prod.snd from rfl, List.filter_map, List.length_map]
    apply length_filter_eq_ncard g.nodes Prod.fst nd
    intro n
    simp only [Set.mem_setOf_eq, NodeLayer, AttrsLayer, Function.comp, decide_eq_true_eq]
    constructor
    · rintro ⟨a, ha, h⟩; exact ⟨(n, a), (hm n a).2 ha, rfl, h⟩
    · rintro ⟨p, hp, rfl, h⟩; exact ⟨p.2, (hm _ _).1 hp, h⟩
  · intro x
    rw [h3 x]
    simp only [find, Option.getD_none, Nat.zero_add]
    rw [show vals g.nodes = g.nodes.map Prod.snd from rfl, List.filter_map, List.length_map]
    apply length_filter_eq_ncard g.nodes Prod.fst nd
    intro n
    simp only [Set.mem_setOf_eq, Function.comp, decide_eq_true_eq, nodeAttr, Option.isSome_iff_exists]
    constructor
    · rintro ⟨v, hv⟩
      cases ha : g.nodeAttrs n with
      | none => rw [ha] at hv; simp at hv
      | some a => rw [ha] at hv; exact ⟨(n, a), (hm n a).2 ha, rfl, (mem_keys_iff _ _).2 ⟨v, hv⟩⟩
    · rintro ⟨p, hp, rfl, h⟩
      obtain ⟨v, hv⟩ := (mem_keys_iff _ _).1 h
      exact ⟨v, by rw [(hm _ _).1 hp]; exact hv⟩
  · intro l
    rw [h4]
    simp only [keys, List.map_nil, List.not_mem_nil, false_or, NodeLayer, AttrsLayer]
    constructor
    · rintro ⟨a, ha, h⟩
      obtain ⟨p, hp, rfl⟩ := List.mem_map.1 ha
      exact ⟨p.1, p.2, (hm _ _).1 hp, h⟩
    · rintro ⟨n, a, ha, h⟩; exact ⟨a, List.mem_map.2 ⟨(n, a), (hm _ _).2 ha, rfl⟩, h⟩
  · intro x
    rw [h5]
    simp only [keys, List.map_nil, List.not_mem_nil, false_or, Option.isSome_iff_exists]
    constructor
    · rintro ⟨a, ha, h⟩
      obtain ⟨p, hp, rfl⟩ := List.mem_map.1 ha
      obtain ⟨v, hv⟩ := (mem_keys_iff _ _).1 h
      exact ⟨p.1, v, by unfold nodeAttr; rw [(hm _ _).1 hp]; exact hv⟩
    · rintro ⟨n, v, hv⟩
      obtain ⟨a, ha⟩ := nodeAttr_hasNode hv
      unfold nodeAttr at hv; rw [ha] at hv
      exact ⟨a, List.mem_map.2 ⟨(n, a), (hm _ _).2 ha, rfl⟩, (mem_keys_iff _ _).2 ⟨v, hv⟩⟩

/-- **C44 (edges)**.  edge_statistics counts for each layer exactly the edges (parallel edges separately) that belong to it and for each attribute name exactly the edges that
have it; the source and target counters are the numbers of edges leaving and entering a node. -/
theorem c44_edge_statistics (g : DG) (hr : Reachable g) :
    ∃ c, edgeStatistics g = .ok c ∧
      (∀ l, (find c.layers l).getD 0 = Set.ncard {t : NodeId × NodeId × Key | g.EdgeLayer t.1 t.2.1 t.2.2 l}) ∧
      (∀ x, (find c.attribs x).getD 0 = Set.ncard {t : NodeId × NodeId × Key | ∃ a v, g.edgeAttrs t.1 t.2.1 t.2.2 = some a ∧ find a x = some v}) ∧
      (∀ n, (find (sourceCounts g) n).getD 0 = Set.ncard {t : NodeId × Key | g.HasEdge n t.1 t.2}) ∧
      (∀ n, (find (targetCounts g) n).getD 0 = Set.ncard {t : NodeId × Key | g.HasEdge t.1 n t.2}) := by
  have wf := hr.inv.wf
  have nd := edges_triple_nodup wf
  obtain ⟨c, h1, h2, h3, _, _⟩ := countLoop_spec (g.edges.map (fun e => e.2.2.2)) ⟨[], []⟩ (by
    intro a ha
    obtain ⟨⟨u, v, k, a⟩, hp, rfl⟩ := List.mem_map.1 ha
    have hp' := (mem_edges_iff wf _ _ _ _).1 hp
    refine ⟨hr.inv.attrs.edge _ _ _ _ hp', ?_⟩
    obtain ⟨xs, hx, _⟩ := hr.inv.edges _ _ _ _ hp'
    exact ⟨xs, hx⟩)
  refine ⟨c, h1, ?_, ?_, ?_, ?_⟩
  · intro l
    rw [h2 l]
    simp only [find, Option.getD_none, Nat.zero_add]
    rw [List.filter_map, List.length_map]
    apply length_filter_eq_ncard g.edges Edge.triple nd
    rintro ⟨u, v, k⟩
    simp only [Set.mem_setOf_eq, EdgeLayer, AttrsLayer, Function.comp, decide_eq_true_eq]
    constructor
    · rintro ⟨a, ha, h⟩; exact ⟨(u, v, k, a), (mem_edges_iff wf _ _ _ _).2 ha, rfl, h⟩
    · rintro ⟨⟨u', v', k', a⟩, hp, he, h⟩
      simp only [Edge.triple, Prod.mk.injEq] at he
      obtain ⟨rfl, rfl, rfl⟩ := he
      exact ⟨a, (mem_edges_iff wf _ _ _ _).1 hp, h⟩
  · intro x
    rw [h3 x]
    simp only [find, Option.getD_none, Nat.zero_add]
    rw [List.filter_map, List.length_map]
    apply length_filter_eq_ncard g.edges Edge.triple nd
    rintro ⟨u, v, k⟩
    simp only [Set.mem_setOf_eq, Function.comp, decide_eq_true_eq]
    constructor
    · rintro ⟨a, w, ha, h⟩; exact ⟨(u, v, k, a), (mem_edges_iff wf _ _ _ _).2 ha, rfl, (mem_keys_iff _ _).2 ⟨w, h⟩⟩
    · rintro ⟨⟨u', v', k', a⟩, hp, he, h⟩
      simp only [Edge.triple, Prod.mk.injEq] at he
      obtain ⟨rfl, rfl, rfl⟩ := he
      obtain ⟨w, hw⟩ := (mem_keys_iff _ _).1 h
      exact ⟨a, w, (mem_edges_iff wf _ _ _ _).1 hp, hw⟩
  all_goals
    intro n
    first | unfold sourceCounts | unfold targetCounts
    rw [find_countAll]
    simp only [find, Option.getD_none, Nat.zero_add]
    rw [List.count, List.countP_map, List.countP_eq_length_filter]
  · rw [← Set.ncard_image_of_injective (s := {t : NodeId × Key | g.HasEdge n t.1 t.2}) (f := fun t => ((n, t.1, t.2) : NodeId × NodeId × Key))
      (by intro a b h; simp only [Prod.mk.injEq, true_and] at h; exact Prod.ext h.1 h.2)]
    apply length_filter_eq_ncard g.edges Edge.triple nd
    rintro ⟨u, v, k⟩
    simp only [Set.mem_image, Set.mem_setOf_eq, Function.comp, beq_iff_eq]
    constructor
    · rintro ⟨t, ht, he⟩
      simp only [Prod.mk.injEq] at he
      obtain ⟨rfl, rfl, rfl⟩ := he
      obtain ⟨a, ha⟩ := Option.isSome_iff_exists.1 ht
      exact ⟨(n, t.1, t.2, a), (mem_edges_iff wf _ _ _ _).2 ha, rfl, rfl⟩
    · rintro ⟨⟨u', v', k', a⟩, hp, he, h⟩
      simp only [Edge.triple, Prod.mk.injEq] at he
      obtain ⟨rfl, rfl, rfl⟩ := he
      have := (mem_edges_iff wf _ _ _ _).1 hp
      simp only at h; subst h
      exact ⟨(v', k'), by unfold HasEdge; simp only; rw [this]; rfl, rfl⟩
  · rw [← Set.ncard_image_of_injective (s := {t : NodeId × Key | g.HasEdge t.1 n t.2}) (f := fun t => ((t.1, n, t.2) : NodeId × NodeId × Key))
      (by intro a b h; simp only [Prod.mk.injEq, true_and] at h; exact Prod.ext h.1 h.2)]
    apply length_filter_eq_ncard g.edges Edge.triple nd
    rintro ⟨u, v, k⟩
    simp only [Set.mem_image, Set.mem_setOf_eq, Function.comp, beq_iff_eq]
    constructor
    · rintro ⟨t, ht, he⟩
      simp only [Prod.mk.injEq] at he
      obtain ⟨rfl, rfl, rfl⟩ := he
      obtain ⟨a, ha⟩ := Option.isSome_iff_exists.1 ht
      exact ⟨(t.1, n, t.2, a), (mem_edges_iff wf _ _ _ _).2 ha, rfl, rfl⟩
    · rintro ⟨⟨u', v', k', a⟩, hp, he, h⟩
      simp only [Edge.triple, Prod.mk.injEq] at he
      obtain ⟨rfl, rfl, rfl⟩ := he
      have := (mem_edges_iff wf _ _ _ _).1 hp
      simp only at h; subst h
      exact ⟨(u', k'), by unfold HasEdge; simp only; rw [this]; rfl, rfl⟩

/-- a graph with a node in two layers and two parallel edges -/
def statsDoc : DG := (init "" "a" (some (.str "r"))).run [.addNode (.str "x") (.set [.str "a", .str "b"]) .none [("label", .atom (.str "l"))],
  .addEdge (.str "x") (.str "r") (.atom .none) none .none [], .addEdge (.str "x") (.str "r") (.set [.str "b"]) none .none [("edge_type", .atom (.str "spans"))]]

example : Reachable statsDoc := ⟨"", "a", some (.str "r"), _, by decide, rfl⟩
example : nodeStatistics statsDoc = .ok ⟨[(.str "a", 2), (.str "b", 1)], [("layers", 2), ("metadata", 1), ("label", 1)]⟩ ∧
    edgeStatistics statsDoc = .ok ⟨[(.str "a", 1), (.str "b", 1)], [("layers", 2), ("edge_type", 1)]⟩ ∧
    sourceCounts statsDoc = [(.str "x", 2)] ∧ targetCounts statsDoc = [(.str "r", 2)] := by decide +kernel

end DG

/-! ### printing -/

theorem insertDesc_perm {K : Type} (x : K × Nat) (ys : List (K × Nat)) : (insertDesc x ys).Perm (x :: ys) := by
  induction ys with
  | nil => exact List.Perm.refl _
  | cons y ys ih =>
    unfold insertDesc
    split
    · exact List.Perm.refl _
    · exact (List.Perm.cons y ih).trans (List.Perm.swap x y ys)

theorem insertDesc_sorted {K : Type} (x : K × Nat) (ys : List (K × Nat)) (h : ys.Pairwise (fun a b => b.2 ≤ a.2)) :
    (insertDesc x ys).Pairwise (fun a b => b.2 ≤ a.2) := by
  induction ys with
  | nil => simp [insertDesc]
  | cons y ys ih =>
    rw [List.pairwise_cons] at h
    unfold insertDesc
    split
    · rename_i hlt
      rw [List.pairwise_cons]
      refine ⟨?_, List.pairwise_cons.2 h⟩
      intro z hz
      rcases List.mem_cons.1 hz with rfl | hz
      · omega
      · have := h.1 z hz; omega
    · rename_i hlt
      rw [List.pairwise_cons]
      refine ⟨?_, ih h.2⟩
      intro z hz
      rcases List.mem_cons.1 ((insertDesc_perm x ys).mem_iff.1 hz) with rfl | hz
      · omega
      · exact h.1 z hz

/-- **C44 (printed order)**.  Each entry of a counter is printed exactly once, in the order of descending counts; most_common prints the first of them. -/
theorem c44_printed_in_descending_order {K : Type} (items : List (K × Nat)) :
    (sortedCounter items).Perm items ∧ (sortedCounter items).Pairwise (fun a b => b.2 ≤ a.2) ∧
    ∀ k, mostCommon items k <+: sortedCounter items ∧ (mostCommon items k).length = min k items.length := by
  have key : ∀ (items acc : List (K × Nat)), acc.Pairwise (fun a b => b.2 ≤ a.2) →
      (items.foldl (fun acc x => insertDesc x acc) acc).Perm (items ++ acc) ∧ (items.foldl (fun acc x => insertDesc x acc) acc).Pairwise (fun a b => b.2 ≤ a.2) := by
    intro items
    induction items with
    | nil => intro acc h; exact ⟨List.Perm.refl _, h⟩
    | cons x items ih =>
      intro acc h
      obtain ⟨p, q⟩ := ih (insertDesc x acc) (insertDesc_sorted x acc h)
      refine ⟨p.trans ?_, q⟩
      exact ((insertDesc_perm x acc).append_left items).trans List.perm_middle
  obtain ⟨p, q⟩ := key items [] List.Pairwise.nil
  rw [List.append_nil] at p
  refine ⟨p, q, fun k => ⟨List.take_prefix _ _, ?_⟩⟩
  unfold mostCommon
  rw [List.length_take, show (sortedCounter items).length = items.length from p.length_eq]

theorem insertDesc_filter {K : Type} (x : K × Nat) (c : Nat) (ys : List (K × Nat)) (h : ys.Pairwise (fun a b => b.2 ≤ a.2)) :
    (insertDesc x ys).filter (fun p => p.2 = c) = ys.filter (fun p => p.2 = c) ++ [x].filter (fun p => p.2 = c) := by
  induction ys with
  | nil => rfl
  | cons y ys ih =>
    rw [List.pairwise_cons] at h
    unfold insertDesc
    split
    · rename_i hlt
      by_cases hx : x.2 = c
      · have hnil : (y :: ys).filter (fun p => decide (p.2 = c)) = [] := by
          rw [List.filter_eq_nil_iff]
          intro z hz
          have : z.2 ≤ y.2 := by
            rcases List.mem_cons.1 hz with rfl | hz
            · exact Nat.le_refl _
            · exact h.1 z hz
          simp; omega
        rw [List.filter_cons, hnil]
        simp [hx]
      · simp [List.filter_cons, hx]
    · rw [List.filter_cons, List.filter_cons, ih h.2]
      split <;> simp

/-- Entries with equal counts are printed in the order of the dict. -/
theorem c44_equal_counts_keep_order {K : Type} (items : List (K × Nat)) (c : Nat) : (sortedCounter items).filter (fun p => p.2 = c) = items.filter (fun p => p.2 = c) := by
  have key : ∀ (items acc : List (K × Nat)), acc.Pairwise (fun a b => b.2 ≤ a.2) →
      (items.foldl (fun acc x => insertDesc x acc) acc).filter (fun p => p.2 = c) = acc.filter (fun p => p.2 = c) ++ items.filter (fun p => p.2 = c) := by
    intro items
    induction items with
    | nil => intro acc _; simp
    | cons x items ih =>
      intro acc h
      rw [List.foldl_cons, ih _ (insertDesc_sorted x acc h), insertDesc_filter x c acc h, List.append_assoc, ← List.filter_append]
      rfl
  unfold sortedCounter
  simpa using key items [] List.Pairwise.nil

example : sortedCounter [("a", 1), ("b", 3), ("c", 1), ("d", 2)] = [("b", 3), ("d", 2), ("a", 1), ("c", 1)] := by decide

end Dg
