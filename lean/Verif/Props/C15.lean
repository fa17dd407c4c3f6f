import Verif.Lemmas.Continuous
import Verif.Props.C14
import Verif.Props.C16

/-! C15: get_span_offsets and is_continuous. -/

namespace Dg
open Dict
namespace DG

/-- **C15 (span offsets)**.  Let the document's tokens be pairwise different, with strings `strs` and with stored offsets (if any) right, and let `span` be what
`get_span` returns for `n`: a non-empty list of tokens of the document.  Then `get_span_offsets(n)` is the onset of the textually first and the offset of the textually
last token of the span, whatever the order of the span; only offset attributes may have been added. -/
theorem c15_span_offsets (g : DG) (strs : List String) (ht : g.HasTokens strs) (nd : g.tokens.Nodup) (hg : g.GoodOffsets g.ns strs)
    (n : NodeId) (fuel : Nat) (hf : 2 ≤ fuel) (span : List NodeId) (hs : g.getSpan fuel n = .ok span) (hne : span ≠ []) (hsub : ∀ t ∈ span, t ∈ g.tokens) :
    ∃ (g' : DG) (i j : Nat) (t u : NodeId), g.tokens[i]? = some t ∧ t ∈ span ∧ g.tokens[j]? = some u ∧ u ∈ span ∧
      (∀ (k : Nat) (w : NodeId), g.tokens[k]? = some w → w ∈ span → i ≤ k ∧ k ≤ j) ∧
      getSpanOffsets fuel g n = (g', .ok ((startOf strs i : Int), (endOf strs j : Int))) ∧
      OnlyOffsetsChanged g g' g.ns g.tokens := by
  obtain ⟨g', e, o, _⟩ := offsetsList_spec span ht nd hg hsub hf
  have hlen : g.tokens.length = strs.length := List.Forall₂.length_eq ht
  obtain ⟨lo, hi, eb, ⟨p, hp, hlo⟩, ⟨q, hq, hhi⟩, hb⟩ := spanBounds_spec
    (xs := span.map (fun t => ((startOf strs (g.tokens.idxOf t) : Int), (endOf strs (g.tokens.idxOf t) : Int)))) (by simpa using hne)
  obtain ⟨t, ht', rfl⟩ := List.mem_map.1 hp
  obtain ⟨u, hu', rfl⟩ := List.mem_map.1 hq
  refine ⟨g', g.tokens.idxOf t, g.tokens.idxOf u, t, u, List.getElem?_idxOf (hsub t ht'), ht', List.getElem?_idxOf (hsub u hu'), hu', ?_, ?_, o⟩
  · intro k w hk hw
    have hkl := (List.getElem?_eq_some_iff.1 hk).1
    have hidx : g.tokens.idxOf w = k := by
      obtain ⟨h1, h2⟩ := List.getElem?_eq_some_iff.1 hk
      rw [← h2]; exact nd.idxOf_getElem _ _
    have hw2 := hb _ (List.mem_map_of_mem hw)
    simp only [hidx] at hw2
    have hti : g.tokens.idxOf t < g.tokens.length := List.idxOf_lt_length_of_mem (hsub t ht')
    have hui : g.tokens.idxOf u < g.tokens.length := List.idxOf_lt_length_of_mem (hsub u hu')
    simp only at hlo hhi
    constructor
    · apply Nat.le_of_not_lt
      intro hlt
      have h1 := endOf_lt_startOf (strs := strs) hlt (by omega)
      have h2 := startOf_le_endOf strs k
      have : (startOf strs (g.tokens.idxOf t) : Int) ≤ startOf strs k := by omega
      omega
    · apply Nat.le_of_not_lt
      intro hlt
      have h1 := endOf_lt_startOf (strs := strs) hlt (by omega)
      have h2 := startOf_le_endOf strs k
      omega
  · unfold getSpanOffsets
    rw [hs]
    simp only
    rw [e]
    simp only [eb, ← hlo, ← hhi]

/-- **C15 (is_continuous)**.  Under the same hypotheses `is_continuous(n)` returns True iff the tokens of `n` form a gap-free stretch of the document's token list:
every token between two tokens of the span belongs to the span. -/
theorem c15_is_continuous (g : DG) (strs : List String) (ht : g.HasTokens strs) (nd : g.tokens.Nodup) (hg : g.GoodOffsets g.ns strs)
    (n : NodeId) (fuel : Nat) (hf : 2 ≤ fuel) (span : List NodeId) (hs : g.getSpan fuel n = .ok span) (hne : span ≠ []) (hsub : ∀ t ∈ span, t ∈ g.tokens) :
    ∃ (g' : DG) (b : Bool), isContinuous fuel g n = (g', .ok b) ∧ OnlyOffsetsChanged g g' g.ns g.tokens ∧
      (b = true ↔ ∀ (i k j : Nat) (t w u : NodeId), i ≤ k → k ≤ j → g.tokens[i]? = some t → g.tokens[k]? = some w → g.tokens[j]? = some u →
        t ∈ span → u ∈ span → w ∈ span) := by
  obtain ⟨g1, lo, hi, t0, u0, hlo, ht0, hhi, hu0, hbd, e1, o1⟩ := c15_span_offsets g strs ht nd hg n fuel hf span hs hne hsub
  have hlen : g.tokens.length = strs.length := List.Forall₂.length_eq ht
  have htok : g1.tokens = g.tokens := o1.rest.2.2.2.1
  have hns : g1.ns = g.ns := o1.rest.2.1
  have hgood : g1.GoodOffsets g1.ns strs := by
    -- the offsets written by get_span_offsets are right again
    obtain ⟨g', e, o, h⟩ := offsetsList_spec span ht nd hg hsub hf
    have : g1 = g' := by
      unfold getSpanOffsets at e1
      rw [hs] at e1
      simp only at e1
      rw [e] at e1
      exact (Prod.mk.inj e1).1.symm
    rw [hns, this]; exact h
  obtain ⟨g2, e2, o2, _⟩ := offsetsList_spec (g := g1) span ((o1.hasTokens strs).2 ht) (by rw [htok]; exact nd) hgood (by rw [htok]; exact hsub) hf
  rw [htok] at e2
  rw [htok, hns] at o2
  have hlol := (List.getElem?_eq_some_iff.1 hlo).1
  have hhil := (List.getElem?_eq_some_iff.1 hhi).1
  have hlohi : lo ≤ hi := (hbd lo t0 hlo ht0).2
  have idx : ∀ (k : Nat) (w : NodeId), g.tokens[k]? = some w → g.tokens.idxOf w = k := by
    intro k w hk
    obtain ⟨h1, h2⟩ := List.getElem?_eq_some_iff.1 hk
    rw [← h2]; exact nd.idxOf_getElem _ _
  refine ⟨g2, (intRange (startOf strs lo) (endOf strs hi)).all (coversChar (span.map (fun t =>
    ((startOf strs (g.tokens.idxOf t) : Int), (endOf strs (g.tokens.idxOf t) : Int))))), ?_, (o1.trans o2).mono (by intro x hx; simpa using hx), ?_⟩
  · unfold isContinuous
    rw [e1]
    simp only [getSpan_congr o1, hs]
    rw [e2]
  · rw [List.all_eq_true]
    constructor
    · intro hall i k j t w u hik hkj hi' hk' hj' htm hum
      have hkl := (List.getElem?_eq_some_iff.1 hk').1
      have hlok : lo ≤ k := Nat.le_trans (hbd i t hi' htm).1 hik
      have hkhi : k ≤ hi := Nat.le_trans hkj (hbd j u hj' hum).2
      have hc := hall (startOf strs k : Int) ((mem_intRange _ _ _).2 (by
        have h1 := startOf_mono (strs := strs) hlok (by omega)
        have h2 := startOf_le_endOf strs k
        have h3 := endOf_mono (strs := strs) hkhi (by omega)
        omega))
      unfold coversChar at hc
      rw [List.any_eq_true] at hc
      obtain ⟨p, hp, hpc⟩ := hc
      obtain ⟨x, hx, rfl⟩ := List.mem_map.1 hp
      simp only [decide_eq_true_eq] at hpc
      have hxi := List.idxOf_lt_length_of_mem (hsub x hx)
      have := tile_unique (strs := strs) (i := g.tokens.idxOf x) (j := k) (c := startOf strs k) (by omega) (by omega)
        (by omega) (by omega) (Nat.le_refl _) (startOf_le_endOf _ _)
      have hx2 := List.getElem?_idxOf (hsub x hx)
      rw [this, hk'] at hx2
      rw [Option.some.inj hx2]; exact hx
    · intro hgap c hc
      obtain ⟨h1, h2⟩ := (mem_intRange _ _ _).1 hc
      obtain ⟨c', rfl⟩ : ∃ c' : Nat, c = c' := ⟨c.toNat, by omega⟩
      obtain ⟨m, m1, m2, m3, m4⟩ := tile_exists (strs := strs) (c := c') hlohi (by omega) (by omega) (by omega)
      have hml : m < g.tokens.length := by omega
      have hm : g.tokens[m]? = some g.tokens[m] := List.getElem?_eq_getElem hml
      have hw := hgap lo m hi t0 _ u0 m1 m2 hlo hm hhi ht0 hu0
      unfold coversChar
      rw [List.any_eq_true]
      refine ⟨_, List.mem_map_of_mem hw, ?_⟩
      simp only [idx m _ hm, decide_eq_true_eq]
      omega

/-- **C15 (no tokens)**.  For a node that spans no token, both functions fail with ValueError (not with the KeyError that get_span_offsets tries to produce). -/
theorem c15_no_tokens (g : DG) (n : NodeId) (fuel : Nat) (hs : g.getSpan fuel n = .ok []) :
    getSpanOffsets fuel g n = (g, .error .value) ∧ isContinuous fuel g n = (g, .error .value) := by
  have h : getSpanOffsets fuel g n = (g, .error .value) := by
    unfold getSpanOffsets
    rw [hs]
    rfl
  refine ⟨h, ?_⟩
  unfold isContinuous
  rw [h]

/-- the sample tree of C16 without `t10`'s neighbour: np spans t9 and t10 (adjacent), and x spans t9 and t11 (not adjacent) -/
def sampleGap : DG :=
  sampleTree.run [
    .addNode (.str "t11") (.atom .none) .none [("d:token", .atom (.str "brennt"))],
    .addEdge (.str "x") (.str "t11") (.atom .none) none .none [("edge_type", .atom (.str "spans"))],
    .addEdge (.str "x") (.str "t9") (.atom .none) none .none [("edge_type", .atom (.str "spans"))],
    .setTokens [.str "t9", .str "t10", .str "t11"]]

example : sampleGap.HasTokens ["das", "Haus", "brennt"] ∧ sampleGap.tokens.Nodup ∧ sampleGap.GoodOffsets sampleGap.ns ["das", "Haus", "brennt"] ∧
    sampleGap.getSpan 9 (.str "np") = .ok [.str "t9", .str "t10"] ∧ sampleGap.getSpan 9 (.str "x") = .ok [.str "t9", .str "t11"] ∧
    (∀ t ∈ [NodeId.str "t9", .str "t11"], t ∈ sampleGap.tokens) ∧
    (isContinuous 9 sampleGap (.str "np")).2 = .ok true ∧ (isContinuous 9 sampleGap (.str "x")).2 = .ok false ∧
    (getSpanOffsets 9 sampleGap (.str "x")).2 = .ok (0, 15) := by
  refine ⟨?_, by decide, ?_, by decide +kernel, by decide +kernel, by decide, by decide +kernel, by decide +kernel, by decide +kernel⟩
  · unfold HasTokens
    have : sampleGap.tokens = [.str "t9", .str "t10", .str "t11"] := by decide
    rw [this]
    exact .cons (by unfold TokenStr; decide) (.cons (by unfold TokenStr; decide) (.cons (by unfold TokenStr; decide) .nil))
  · intro i t x y hi hx
    have hn : ∀ t ∈ sampleGap.tokens, sampleGap.nodeAttr t (sampleGap.ns ++ (":" ++ "onset")) = none := by decide
    rw [hn t (List.mem_of_getElem? hi)] at hx
    simp at hx

end DG
end Dg
