import Verif.Lemmas.GetOffsets
import Verif.Lemmas.Span
import Mathlib.Data.List.Nodup

namespace Dg
open Dict
namespace DG

/-! ### get_span does not see offsets -/

theorem spanLoop_congr {r1 r2 : NodeId → Except PyErr (List NodeId)} (h : ∀ n, r1 n = r2 n) (es : List (NodeId × NodeId × Key × Attrs)) :
    spanLoop r1 es = spanLoop r2 es := by
  have : r1 = r2 := funext h
  rw [this]

theorem getSpan_congr {g g' : DG} {ns : String} {ts : List NodeId} (o : OnlyOffsetsChanged g g' ns ts) (fuel : Nat) (n : NodeId) :
    g'.getSpan fuel n = g.getSpan fuel n := by
  induction fuel generalizing n with
  | zero => rfl
  | succ fuel ih =>
    have hrec : g'.getSpan fuel = g.getSpan fuel := funext ih
    have hout : g'.outEdges n = g.outEdges n := by unfold outEdges; rw [o.edges]
    have hnd : (∃ a, find g'.nodes n = some a) ↔ (∃ a, find g.nodes n = some a) := by
      rw [← mem_keys_iff, ← mem_keys_iff, o.nodes]
    unfold getSpan
    rw [hrec, hout]
    cases h1 : find g.nodes n with
    | none =>
      cases h2 : find g'.nodes n with
      | none => rfl
      | some b => obtain ⟨a, ha⟩ := hnd.1 ⟨b, h2⟩; rw [h1] at ha; simp at ha
    | some a =>
      obtain ⟨b, hb⟩ := hnd.2 ⟨a, h1⟩
      rw [hb]
      simp only
      have hh : has b (qual g'.ns "token") = has a (qual g.ns "token") := by
        have := o.attrs n (qual g.ns "token") (token_ne_onset _ _) (token_ne_offset _ _)
        unfold nodeAttr nodeAttrs at this
        rw [h1, hb] at this
        simp only [Option.bind_some] at this
        rw [o.rest.2.1]
        unfold has
        rw [this]
      rw [hh]

/-! ### the tiling of the text by tokens -/

theorem startOf_succ {strs : List String} {i : Nat} (hi : i < strs.length) : startOf strs (i + 1) = endOf strs i + 1 := by
  unfold endOf startOf
  have : strs.take (i + 1) = strs.take i ++ [strs.getD i ""] := by
    rw [List.take_add_one]
    congr 1
    rw [List.getD_eq_getElem?_getD, List.getElem?_eq_getElem (by omega)]
    rfl
  rw [this]
  simp only [List.map_append, List.sum_append, List.map_cons, List.map_nil, List.sum_cons, List.sum_nil]
  omega

theorem startOf_le_endOf (strs : List String) (i : Nat) : startOf strs i ≤ endOf strs i := by unfold endOf; omega

theorem endOf_lt_startOf {strs : List String} {i j : Nat} (hij : i < j) (hj : j ≤ strs.length) : endOf strs i < startOf strs j := by
  induction j with
  | zero => omega
  | succ j ih =>
    rw [startOf_succ (by omega)]
    by_cases h : i = j
    · subst h; omega
    · have := ih (by omega) (by omega)
      have := startOf_le_endOf strs j
      omega

theorem startOf_mono {strs : List String} {i j : Nat} (hij : i ≤ j) (hj : j ≤ strs.length) : startOf strs i ≤ startOf strs j := by
  by_cases h : i = j
  · subst h; omega
  · have := endOf_lt_startOf (strs := strs) (i := i) (j := j) (by omega) hj
    have := startOf_le_endOf strs i
    omega

theorem endOf_mono {strs : List String} {i j : Nat} (hij : i ≤ j) (hj : j < strs.length) : endOf strs i ≤ endOf strs j := by
  by_cases h : i = j
  · subst h; omega
  · have := endOf_lt_startOf (strs := strs) (i := i) (j := j) (by omega) (by omega)
    have := startOf_le_endOf strs j
    omega

theorem tile_unique {strs : List String} {i j c : Nat} (hi : i < strs.length) (hj : j < strs.length)
    (h1 : startOf strs i ≤ c) (h2 : c ≤ endOf strs i) (h3 : startOf strs j ≤ c) (h4 : c ≤ endOf strs j) : i = j := by
  rcases Nat.lt_trichotomy i j with h | h | h
  · have := endOf_lt_startOf (strs := strs) h (by omega); omega
  · exact h
  · have := endOf_lt_startOf (strs := strs) h (by omega); omega

theorem tile_exists {strs : List String} {i j c : Nat} (hij : i ≤ j) (hj : j < strs.length)
    (h1 : startOf strs i ≤ c) (h2 : c ≤ endOf strs j) : ∃ m, i ≤ m ∧ m ≤ j ∧ startOf strs m ≤ c ∧ c ≤ endOf strs m := by
  induction j with
  | zero => exact ⟨0, by omega, by omega, by rwa [show i = 0 by omega] at h1, h2⟩
  | succ j ih =>
    by_cases hc : startOf strs (j + 1) ≤ c
    · exact ⟨j + 1, hij, Nat.le_refl _, hc, h2⟩
    · by_cases hi : i = j + 1
      · subst hi; exact absurd h1 hc
      · rw [startOf_succ (by omega)] at hc
        obtain ⟨m, m1, m2, m3, m4⟩ := ih (by omega) (by omega) (by omega)
        exact ⟨m, m1, by omega, m3, m4⟩

/-! ### offsets of a list of tokens -/

theorem offsetsList_spec {strs : List String} (ts : List NodeId) : ∀ {g : DG}, g.HasTokens strs → g.tokens.Nodup →
    g.GoodOffsets g.ns strs → (∀ t ∈ ts, t ∈ g.tokens) → ∀ {fuel : Nat}, 2 ≤ fuel →
    ∃ g', offsetsList fuel g ts = (g', .ok (ts.map (fun t => ((startOf strs (g.tokens.idxOf t) : Int), (endOf strs (g.tokens.idxOf t) : Int))))) ∧
      OnlyOffsetsChanged g g' g.ns g.tokens ∧ g'.GoodOffsets g.ns strs := by
  induction ts with
  | nil => intro g _ _ hg _ fuel _; exact ⟨g, rfl, OnlyOffsetsChanged.refl _ _ _, hg⟩
  | cons t ts ih =>
    intro g ht nd hg hsub fuel hf
    have hmem := hsub t (by simp)
    have hi : g.tokens[g.tokens.idxOf t]? = some t := List.getElem?_idxOf hmem
    obtain ⟨g1, e1, o1, hg1, _⟩ := getOffsets_spec ht nd hg hi hf
    have htok : g1.tokens = g.tokens := o1.rest.2.2.2.1
    have hns : g1.ns = g.ns := o1.rest.2.1
    obtain ⟨g2, e2, o2, hg2⟩ := ih (g := g1) ((o1.hasTokens strs).2 ht) (by rw [htok]; exact nd) (by rw [hns]; exact hg1)
      (by intro x hx; rw [htok]; exact hsub x (List.mem_cons_of_mem _ hx)) hf
    rw [htok, hns] at o2
    rw [hns] at hg2
    refine ⟨g2, ?_, (o1.trans o2).mono (by intro x hx; simpa using hx), hg2⟩
    unfold offsetsList
    rw [e1]
    simp only [asInt]
    rw [e2]
    simp only [htok, List.map_cons]

theorem minList_le (x : Int) (xs : List Int) : minList x xs ≤ x ∧ ∀ y ∈ xs, minList x xs ≤ y := by
  unfold minList
  induction xs generalizing x with
  | nil => simp
  | cons z zs ih =>
    have := ih (min x z)
    simp only [List.foldl_cons]
    refine ⟨by omega, ?_⟩
    intro y hy
    rcases List.mem_cons.1 hy with rfl | hy
    · omega
    · exact this.2 y hy

theorem minList_mem (x : Int) (xs : List Int) : minList x xs = x ∨ minList x xs ∈ xs := by
  unfold minList
  induction xs generalizing x with
  | nil => simp
  | cons z zs ih =>
    simp only [List.foldl_cons, List.mem_cons]
    rcases ih (min x z) with h | h
    · rw [h]; omega
    · exact Or.inr (Or.inr h)

theorem maxList_le (x : Int) (xs : List Int) : x ≤ maxList x xs ∧ ∀ y ∈ xs, y ≤ maxList x xs := by
  unfold maxList
  induction xs generalizing x with
  | nil => simp
  | cons z zs ih =>
    have := ih (max x z)
    simp only [List.foldl_cons]
    refine ⟨by omega, ?_⟩
    intro y hy
    rcases List.mem_cons.1 hy with rfl | hy
    · omega
    · exact this.2 y hy

theorem maxList_mem (x : Int) (xs : List Int) : maxList x xs = x ∨ maxList x xs ∈ xs := by
  unfold maxList
  induction xs generalizing x with
  | nil => simp
  | cons z zs ih =>
    simp only [List.foldl_cons, List.mem_cons]
    rcases ih (max x z) with h | h
    · rw [h]; omega
    · exact Or.inr (Or.inr h)

theorem spanBounds_spec {xs : List (Int × Int)} (hne : xs ≠ []) :
    ∃ lo hi, spanBounds xs = .ok (lo, hi) ∧ (∃ p ∈ xs, p.1 = lo) ∧ (∃ p ∈ xs, p.2 = hi) ∧ ∀ p ∈ xs, lo ≤ p.1 ∧ p.2 ≤ hi := by
  cases xs with
  | nil => exact absurd rfl hne
  | cons p xs =>
    obtain ⟨i, j⟩ := p
    refine ⟨_, _, rfl, ?_, ?_, ?_⟩
    · rcases minList_mem i (xs.map Prod.fst) with h | h
      · exact ⟨(i, j), by simp, h.symm⟩
      · obtain ⟨q, hq, he⟩ := List.mem_map.1 h
        exact ⟨q, List.mem_cons_of_mem _ hq, he⟩
    · rcases maxList_mem j (xs.map Prod.snd) with h | h
      · exact ⟨(i, j), by simp, h.symm⟩
      · obtain ⟨q, hq, he⟩ := List.mem_map.1 h
        exact ⟨q, List.mem_cons_of_mem _ hq, he⟩
    · intro p hp
      have h1 := minList_le i (xs.map Prod.fst)
      have h2 := maxList_le j (xs.map Prod.snd)
      rcases List.mem_cons.1 hp with rfl | hp
      · exact ⟨h1.1, h2.1⟩
      · exact ⟨h1.2 _ (List.mem_map_of_mem hp), h2.2 _ (List.mem_map_of_mem hp)⟩

theorem mem_intRange (a b c : Int) : c ∈ intRange a b ↔ a ≤ c ∧ c ≤ b := by
  unfold intRange
  simp only [List.mem_map, List.mem_range]
  constructor
  · rintro ⟨i, hi, rfl⟩; omega
  · intro h; exact ⟨(c - a).toNat, by omega, by omega⟩

end DG
end Dg
