import Verif.Lemmas.Offsets

namespace Dg
open Dict
namespace DG

theorem istoken_eq {g : DG} {t : NodeId} {a : Attrs} (h : g.nodeAttrs t = some a) :
    g.istoken t none = .ok (g.nodeAttr t (qual g.ns "token")).isSome := by
  unfold istoken nodeAttr
  unfold nodeAttrs at h ⊢
  rw [h]
  rfl

theorem istoken_true {g : DG} {t : NodeId} {x : Val} (h : g.nodeAttr t (qual g.ns "token") = some x) : g.istoken t none = .ok true := by
  obtain ⟨a, ha⟩ := nodeAttr_hasNode h
  rw [istoken_eq ha, h]
  rfl

theorem hasTokens_get {g : DG} {strs : List String} (ht : g.HasTokens strs) {i : Nat} {t : NodeId} (hi : g.tokens[i]? = some t) :
    ∃ s, strs[i]? = some s ∧ g.TokenStr t s := by
  unfold HasTokens at ht
  rw [List.forall₂_iff_get] at ht
  obtain ⟨hl, h⟩ := ht
  obtain ⟨h1, h2⟩ := List.getElem?_eq_some_iff.1 hi
  refine ⟨strs[i], List.getElem?_eq_getElem _, ?_⟩
  have := h i h1 (by omega)
  simp only [List.get_eq_getElem, h2] at this
  exact this

theorem tryOffsets_present {g : DG} {ons : String} {t : NodeId} {x y z : Val} (ht : g.nodeAttr t (qual g.ns "token") = some z)
    (hx : g.nodeAttr t (qual ons "onset") = some x) (hy : g.nodeAttr t (qual ons "offset") = some y) :
    g.tryOffsets ons t = .ok (x, y) := by
  unfold tryOffsets
  rw [istoken_true ht, getAttr_ok.2 hx, getAttr_ok.2 hy]
  rfl

theorem tryOffsets_missing {g : DG} {ons : String} {t : NodeId} {z : Val} (ht : g.nodeAttr t (qual g.ns "token") = some z)
    (h : g.nodeAttr t (qual ons "onset") = none ∨ g.nodeAttr t (qual ons "offset") = none) :
    g.tryOffsets ons t = .error .key := by
  unfold tryOffsets
  rw [istoken_true ht]
  cases hx : g.nodeAttr t (qual ons "onset") with
  | none => rw [getAttr_none hx]; rfl
  | some x =>
    rw [getAttr_ok.2 hx]
    rcases h with h | h
    · rw [hx] at h; simp at h
    · rw [getAttr_none h]; rfl

/-- all tokens carry the right offsets -/
def AllOffsets (g : DG) (ns : String) (strs : List String) : Prop :=
  ∀ (i : Nat) (t : NodeId), g.tokens[i]? = some t → g.OffsetsAt ns t (startOf strs i) (endOf strs i)

theorem AllOffsets.good {g : DG} {ns : String} {strs : List String} (h : g.AllOffsets ns strs) : g.GoodOffsets ns strs := by
  intro i t x y hi hx hy
  obtain ⟨h1, h2⟩ := h i t hi
  rw [h1] at hx; rw [h2] at hy
  exact ⟨(Option.some.inj hx).symm, (Option.some.inj hy).symm⟩

theorem addOffsets_spec {g : DG} {ons : String} {strs : List String} (ht : g.HasTokens strs) (nd : g.tokens.Nodup) :
    ∃ g', g.addOffsets (some ons) = (g', none) ∧ OnlyOffsetsChanged g g' ons g.tokens ∧ g'.AllOffsets ons strs := by
  obtain ⟨g', e, o, h⟩ := addOffsetsLoop_spec ons g.tokens g 0 strs ht nd
  simp only [Nat.zero_add] at h
  refine ⟨g', e, o, ?_⟩
  intro i t hi
  rw [o.rest.2.2.2.1] at hi
  exact h i t hi

theorem getOffsets_spec {g : DG} {ons : String} {strs : List String} (ht : g.HasTokens strs) (nd : g.tokens.Nodup)
    (hg : g.GoodOffsets ons strs) {i : Nat} {t : NodeId} (hi : g.tokens[i]? = some t) {fuel : Nat} (hf : 2 ≤ fuel) :
    ∃ g', getOffsets ons t fuel g = (g', .ok (.atom (.int (startOf strs i)), .atom (.int (endOf strs i)))) ∧
      OnlyOffsetsChanged g g' ons g.tokens ∧ g'.GoodOffsets ons strs ∧ g'.OffsetsAt ons t (startOf strs i) (endOf strs i) ∧
      (g' = g ∨ g.addOffsets (some ons) = (g', none)) := by
  obtain ⟨s, hs, hts⟩ := hasTokens_get ht hi
  obtain ⟨f, rfl⟩ : ∃ f, fuel = f + 2 := ⟨fuel - 2, by omega⟩
  by_cases hp : (∃ x, g.nodeAttr t (qual ons "onset") = some x) ∧ (∃ y, g.nodeAttr t (qual ons "offset") = some y)
  · obtain ⟨⟨x, hx⟩, ⟨y, hy⟩⟩ := hp
    obtain ⟨rfl, rfl⟩ := hg i t x y hi hx hy
    refine ⟨g, ?_, OnlyOffsetsChanged.refl _ _ _, hg, ⟨hx, hy⟩, Or.inl rfl⟩
    unfold getOffsets
    rw [tryOffsets_present hts hx hy]
  · have hmiss : g.nodeAttr t (qual ons "onset") = none ∨ g.nodeAttr t (qual ons "offset") = none := by
      cases h1 : g.nodeAttr t (qual ons "onset") with
      | none => exact Or.inl rfl
      | some x =>
        cases h2 : g.nodeAttr t (qual ons "offset") with
        | none => exact Or.inr rfl
        | some y => exact absurd ⟨⟨x, h1⟩, ⟨y, h2⟩⟩ hp
    obtain ⟨g', e, o, h⟩ := addOffsets_spec (ons := ons) ht nd
    have hi' : g'.tokens[i]? = some t := by rw [o.rest.2.2.2.1]; exact hi
    have hat := h i t hi'
    refine ⟨g', ?_, o, h.good, hat, Or.inr e⟩
    unfold getOffsets
    rw [tryOffsets_missing hts hmiss]
    simp only [e]
    unfold getOffsets
    rw [tryOffsets_present ((o.tokenStr t s).2 hts) hat.1 hat.2]

end DG
end Dg
