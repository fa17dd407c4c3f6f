import Verif.Lemmas.GetOffsets
import Verif.Props.C13

/-! C14: get_offsets computes missing offsets on demand. -/

namespace Dg
open Dict
namespace DG

/-- **C14 (one token)**.  Let the document's tokens be pairwise different nodes with strings `strs` such that offsets already stored (if any) are right.
Then `get_offsets(t, ns)` of the `i`-th token returns its character positions in the text; if both offsets are stored already, nothing changes; if one is
missing, exactly the effect of `add_offsets(ns)` remains, i.e. all tokens get offsets; a second call returns the same and changes nothing.  One level
of recursion is all it needs. -/
theorem c14_offsets_on_demand (g : DG) (ns : String) (strs : List String) (ht : g.HasTokens strs) (nd : g.tokens.Nodup)
    (hg : g.GoodOffsets ns strs) (i : Nat) (t : NodeId) (hi : g.tokens[i]? = some t) (fuel : Nat) (hf : 2 ≤ fuel) :
    ∃ g', getOffsets ns t fuel g = (g', .ok (.atom (.int (startOf strs i)), .atom (.int (endOf strs i)))) ∧
      OnlyOffsetsChanged g g' ns g.tokens ∧ g'.OffsetsAt ns t (startOf strs i) (endOf strs i) ∧
      (∀ on off, g.OffsetsAt ns t on off → g' = g) ∧
      ((∀ on off, ¬ g.OffsetsAt ns t on off) → g.addOffsets (some ns) = (g', none) ∧
        ∀ j u, g.tokens[j]? = some u → g'.OffsetsAt ns u (startOf strs j) (endOf strs j)) ∧
      ∀ fuel', 1 ≤ fuel' → getOffsets ns t fuel' g' = (g', .ok (.atom (.int (startOf strs i)), .atom (.int (endOf strs i)))) := by
  obtain ⟨g', e, o, hg', hat, hor⟩ := getOffsets_spec ht nd hg hi hf
  obtain ⟨s, hs, hts⟩ := hasTokens_get ht hi
  refine ⟨g', e, o, hat, ?_, ?_, ?_⟩
  · intro on off hoff
    obtain ⟨f, rfl⟩ : ∃ f, fuel = f + 1 := ⟨fuel - 1, by omega⟩
    unfold getOffsets at e
    rw [tryOffsets_present hts hoff.1 hoff.2] at e
    exact (Prod.mk.inj e).1.symm
  · intro hno
    rcases hor with rfl | h
    · exact absurd hat (hno _ _)
    · refine ⟨h, ?_⟩
      obtain ⟨g'', e2, o2, h2⟩ := addOffsets_spec (ons := ns) ht nd
      rw [h] at e2
      obtain rfl : g' = g'' := (Prod.mk.inj e2).1
      intro j u hj
      exact h2 j u (by rw [o2.rest.2.2.2.1]; exact hj)
  · intro fuel' hf'
    obtain ⟨f, rfl⟩ : ∃ f, fuel' = f + 1 := ⟨fuel' - 1, by omega⟩
    unfold getOffsets
    rw [tryOffsets_present ((o.tokenStr t s).2 hts) hat.1 hat.2]

/-- **C14 (non-token nodes)**.  For an existing node without token string, `get_offsets` raises AssertionError and changes nothing. -/
theorem c14_non_token_raises (g : DG) (ns : String) (n : NodeId) (hn : g.HasNode n) (hno : ¬ g.IsToken n) (fuel : Nat) (hf : 1 ≤ fuel) :
    getOffsets ns n fuel g = (g, .error .assertion) := by
  obtain ⟨f, rfl⟩ : ∃ f, fuel = f + 1 := ⟨fuel - 1, by omega⟩
  obtain ⟨a, ha⟩ := (mem_keys_iff _ _).1 hn
  unfold getOffsets tryOffsets
  rw [istoken_eq ha]
  have : (g.nodeAttr n (qual g.ns "token")).isSome = false := by
    rw [Bool.eq_false_iff]
    intro h
    exact hno (Option.isSome_iff_exists.1 h)
  rw [this]
  rfl

/-- **C14 (all tokens)**.  Once every token has offsets, `get_offsets()` without token ID yields all tokens in document order with their offsets. -/
theorem c14_all_offsets_partial (g : DG) (ns : Option String) (strs : List String) (ht : g.HasTokens strs) (nd : g.tokens.Nodup) :
    ∃ g', g.addOffsets ns = (g', none) ∧
      g'.getAllOffsets (ns.getD g.ns) = ((g.tokens.zipIdx).map (fun p => (p.1, .atom (.int (startOf strs p.2)), .atom (.int (endOf strs p.2)))), none) := by
  obtain ⟨g', e, o, h⟩ := addOffsets_spec (ons := ns.getD g.ns) ht nd
  refine ⟨g', ?_, ?_⟩
  · rw [← e]; rfl
  · unfold getAllOffsets
    rw [o.rest.2.2.2.1]
    have ht' := (o.hasTokens strs).2 ht
    have key : ∀ (ts : List NodeId) (k : Nat), (∀ (i : Nat) (t : NodeId), ts[i]? = some t → g'.tokens[i + k]? = some t) →
        Gen.collect (fun t => match g'.offsetItem (ns.getD g.ns) t with
          | .ok v => .ok (some v)
          | .error e => .error e) ts =
        ((ts.zipIdx k).map (fun p => (p.1, .atom (.int (startOf strs p.2)), .atom (.int (endOf strs p.2)))), none) := by
      intro ts
      induction ts with
      | nil => intro k _; rfl
      | cons t ts ih =>
        intro k hk
        have h0 : g'.tokens[k]? = some t := by simpa using hk 0 t rfl
        obtain ⟨s, _, hts⟩ := hasTokens_get ht' h0
        have hat := h k t h0
        have hitem : g'.offsetItem (ns.getD g.ns) t = .ok (t, .atom (.int (startOf strs k)), .atom (.int (endOf strs k))) := by
          unfold offsetItem getToken qual
          rw [getAttr_ok.2 hts, getAttr_ok.2 hat.1, getAttr_ok.2 hat.2]
          rfl
        have ih' := ih (k + 1) (by
          intro i t' hi
          have := hk (i + 1) t' (by simpa using hi)
          rw [show i + (k + 1) = i + 1 + k by omega]
          exact this)
        unfold Gen.collect
        rw [hitem]
        simp only [ih', List.zipIdx_cons, List.map_cons]
    have := key g.tokens 0 (by intro i t hi; rw [o.rest.2.2.2.1]; simpa using hi)
    exact this

example : sampleDoc.GoodOffsets "doc" ["Guten", "Tag"] ∧ sampleDoc.HasNode (.str "doc:root_node") ∧ ¬ sampleDoc.IsToken (.str "doc:root_node") ∧
    (getOffsets "doc" (.str "t2") 2 sampleDoc).2 = .ok (.atom (.int 6), .atom (.int 9)) := by
  refine ⟨?_, by decide, ?_, by decide +kernel⟩
  · intro i t x y hi hx
    have hn : ∀ t ∈ sampleDoc.tokens, sampleDoc.nodeAttr t ("doc" ++ (":" ++ "onset")) = none := by decide
    rw [hn t (List.mem_of_getElem? hi)] at hx
    simp at hx
  · rintro ⟨x, hx⟩
    have : sampleDoc.nodeAttr (.str "doc:root_node") (sampleDoc.ns ++ (":" ++ "token")) = none := by decide
    rw [this] at hx; simp at hx

/-- What is missing from the English claim, 1: `get_offsets()` without token ID does NOT compute missing offsets; its generator raises KeyError on the first
`next()` because the `try` block only protects the creation of the generator. -/
theorem c14_fails_lazy_generator : sampleDoc.getAllOffsets "doc" = ([], some .key) ∧ sampleDoc.HasTokens ["Guten", "Tag"] := by
  refine ⟨by decide +kernel, ?_⟩
  unfold HasTokens
  have : sampleDoc.tokens = [.str "t1", .str "t2"] := by decide
  rw [this]
  exact .cons (by unfold TokenStr; decide) (.cons (by unfold TokenStr; decide) .nil)

/-- What is missing, 2: for an unknown node ID the KeyError is mistaken for missing offsets and the method recurses until the recursion limit, for every limit. -/
theorem c14_fails_unknown_node (g : DG) (ns : String) (strs : List String) (ht : g.HasTokens strs) (nd : g.tokens.Nodup)
    (n : NodeId) (hn : ¬ g.HasNode n) (fuel : Nat) : (getOffsets ns n fuel g).2 = .error .recursion := by
  induction fuel generalizing g with
  | zero => rfl
  | succ fuel ih =>
    have hf : find g.nodes n = none := (find_eq_none_iff _ _).2 hn
    have hit : g.tryOffsets ns n = .error .key := by
      unfold tryOffsets istoken
      rw [hf]
      rfl
    obtain ⟨g', e, o, _⟩ := addOffsets_spec (ons := ns) ht nd
    unfold getOffsets
    rw [hit]
    simp only [e]
    refine ih g' ((o.hasTokens strs).2 ht) (by rw [o.rest.2.2.2.1]; exact nd) ?_
    unfold HasNode at hn ⊢
    rw [o.nodes]; exact hn

end DG
end Dg
