import Verif.Lemmas.Words
import Verif.Spec.Anaphoricity
import Verif.Lemmas.Exmaralda

namespace Dg
open Dict

theorem anaphStem_iff {s t r : List Char} : anaphStem s = some (t, r) ↔ t ∈ anaphors ∧ s = t ++ r := by
  constructor
  · intro h
    unfold anaphStem at h
    split at h
    · split at h
      · next hc =>
        obtain ⟨rfl, rfl⟩ := Prod.mk.inj (Option.some.inj h)
        rcases hc with rfl | rfl <;> exact ⟨by decide, rfl⟩
      · cases h
    · split at h
      · next hc =>
        obtain ⟨rfl, rfl⟩ := Prod.mk.inj (Option.some.inj h)
        rcases hc with rfl | rfl <;> exact ⟨by decide, rfl⟩
      · cases h
    · cases h
  · rintro ⟨ht, rfl⟩
    simp only [anaphors, List.mem_cons, List.not_mem_nil, or_false] at ht
    rcases ht with rfl | rfl | rfl | rfl <;> rfl

theorem annotationType_iff {x : Char} {ty : String} : annotationType x = .ok ty ↔ (x, ty) ∈ anaphLetters := by
  unfold annotationType annotationTypes anaphLetters
  simp only [Dict.find, List.mem_cons, List.not_mem_nil, or_false, Prod.mk.injEq]
  by_cases h1 : x = 'n'
  · subst h1; simp; exact eq_comm
  by_cases h2 : x = 'a'
  · subst h2; simp; exact eq_comm
  by_cases h3 : x = 'r'
  · subst h3; simp; exact eq_comm
  by_cases h4 : x = 'p'
  · subst h4; simp; exact eq_comm
  simp [h1, h2, h3, h4, Ne.symm h1, Ne.symm h2, Ne.symm h3, Ne.symm h4]

theorem letter_iff {x : Char} : (x = 'a' ∨ x = 'n' ∨ x = 'p' ∨ x = 'r') ↔ ∃ ty, (x, ty) ∈ anaphLetters := by
  simp [anaphLetters, exists_or]

theorem anaphHere_iff {s t : List Char} {x : Char} {u : Bool} : anaphHere s = some (t, x, u) ↔ t ∈ anaphors ∧ (∃ ty, (x, ty) ∈ anaphLetters) ∧ ∃ r, s = t ++ '/' :: x :: r ∧ (u = true ↔ r.head? = some '?') := by
  unfold anaphHere
  constructor
  · intro h
    split at h
    · next t' x' r hst =>
      obtain ⟨ht, hs⟩ := anaphStem_iff.1 hst
      split at h
      · next hx =>
        obtain ⟨rfl, rfl, rfl⟩ : t' = t ∧ x' = x ∧ decide (r.head? = some '?') = u := by
          have := Option.some.inj h
          exact ⟨congrArg Prod.fst this, congrArg (fun p => p.2.1) this, congrArg (fun p => p.2.2) this⟩
        exact ⟨ht, letter_iff.1 hx, r, hs, by simp⟩
      · cases h
    · cases h
  · rintro ⟨ht, hx, r, rfl, hu⟩
    rw [anaphStem_iff.2 ⟨ht, rfl⟩]
    simp only
    rw [if_pos (letter_iff.2 hx)]
    have : decide (r.head? = some '?') = u := by
      cases u
      · simpa using hu
      · simpa using hu
    rw [this]

theorem annotationAt_here {w t : List Char} {k : Nat} {ty : String} {u : Bool} : AnnotationAt w k t ty u ↔ ∃ x, anaphHere (w.drop k) = some (t, x, u) ∧ (x, ty) ∈ anaphLetters := by
  constructor
  · rintro ⟨ht, x, r, hx, hd, hu⟩
    exact ⟨x, anaphHere_iff.2 ⟨ht, ⟨ty, hx⟩, r, hd, hu⟩, hx⟩
  · rintro ⟨x, h, hx⟩
    obtain ⟨ht, _, r, hd, hu⟩ := anaphHere_iff.1 h
    exact ⟨ht, x, r, hx, hd, hu⟩

theorem anaphHere_none {w : List Char} {k : Nat} : anaphHere (w.drop k) = none ↔ ∀ t ty u, ¬ AnnotationAt w k t ty u := by
  constructor
  · intro h t ty u ha
    obtain ⟨x, hx, _⟩ := annotationAt_here.1 ha
    rw [h] at hx
    cases hx
  · intro h
    cases he : anaphHere (w.drop k) with
    | none => rfl
    | some m =>
      obtain ⟨t, x, u⟩ := m
      obtain ⟨_, ⟨ty, hx⟩, _⟩ := anaphHere_iff.1 he
      exact absurd (annotationAt_here.2 ⟨x, he, hx⟩) (h t ty u)

theorem anaphSearch_eq (w : List Char) : (∃ k t x u, anaphSearch w = some (t, x, u) ∧ anaphHere (w.drop k) = some (t, x, u) ∧ ∀ j < k, anaphHere (w.drop j) = none) ∨
    (anaphSearch w = none ∧ ∀ j, anaphHere (w.drop j) = none) := by
  induction w with
  | nil => right; exact ⟨rfl, fun j => by cases j <;> rfl⟩
  | cons c s ih =>
    unfold anaphSearch
    cases he : anaphHere (c :: s) with
    | some m =>
      obtain ⟨t, x, u⟩ := m
      exact .inl ⟨0, t, x, u, rfl, he, by simp⟩
    | none =>
      rcases ih with ⟨k, t, x, u, h1, h2, h3⟩ | ⟨h1, h2⟩
      · refine .inl ⟨k + 1, t, x, u, h1, h2, ?_⟩
        intro j hj
        cases j with
        | zero => exact he
        | succ j => exact h3 j (by omega)
      · refine .inr ⟨h1, ?_⟩
        intro j
        cases j with
        | zero => exact he
        | succ j => exact h2 j

theorem anaphSearch_some {w t : List Char} {x : Char} {u : Bool} (h : anaphSearch w = some (t, x, u)) : ∃ ty, (x, ty) ∈ anaphLetters ∧ Annotated w t ty u := by
  rcases anaphSearch_eq w with ⟨k, t', x', u', h1, h2, h3⟩ | ⟨h1, _⟩
  · rw [h1] at h
    obtain ⟨rfl, rfl, rfl⟩ : t' = t ∧ x' = x ∧ u' = u := by
      have := Option.some.inj h
      exact ⟨congrArg Prod.fst this, congrArg (fun p => p.2.1) this, congrArg (fun p => p.2.2) this⟩
    obtain ⟨_, ⟨ty, hx⟩, _⟩ := anaphHere_iff.1 h2
    exact ⟨ty, hx, k, annotationAt_here.2 ⟨_, h2, hx⟩, fun j hj => anaphHere_none.1 (h3 j hj)⟩
  · rw [h1] at h; cases h

theorem anaphSearch_none {w : List Char} (h : anaphSearch w = none) : Unannotated w := by
  rcases anaphSearch_eq w with ⟨k, t', x', u', h1, _⟩ | ⟨_, h2⟩
  · rw [h1] at h; cases h
  · exact fun k => anaphHere_none.1 (h2 k)

theorem annotated_some {w t : List Char} {ty : String} {u : Bool} (h : Annotated w t ty u) : ∃ x, anaphSearch w = some (t, x, u) ∧ (x, ty) ∈ anaphLetters := by
  obtain ⟨k, ha, hmin⟩ := h
  obtain ⟨x, hx, hl⟩ := annotationAt_here.1 ha
  rcases anaphSearch_eq w with ⟨k', t', x', u', h1, h2, h3⟩ | ⟨_, h2⟩
  · have : k = k' := by
      rcases Nat.lt_trichotomy k k' with hk | hk | hk
      · rw [h3 k hk] at hx; cases hx
      · exact hk
      · rw [anaphHere_none.2 (hmin k' hk)] at h2; cases h2
    subst this
    rw [h2] at hx
    rw [h1, hx]
    exact ⟨x, rfl, hl⟩
  · rw [h2 k] at hx; cases hx

theorem unannotated_none {w : List Char} (h : Unannotated w) : anaphSearch w = none := by
  cases he : anaphSearch w with
  | none => rfl
  | some m =>
    obtain ⟨t, x, u⟩ := m
    obtain ⟨ty, _, k, ha, _⟩ := anaphSearch_some he
    exact absurd ha (h k t ty u)

instance (w : List Char) : Decidable (Unannotated w) :=
  if h : anaphSearch w = none then isTrue (anaphSearch_none h) else isFalse (fun hu => h (unannotated_none hu))

theorem letter_unique {x : Char} {ty ty' : String} (h : (x, ty) ∈ anaphLetters) (h' : (x, ty') ∈ anaphLetters) : ty = ty' := by
  rw [← annotationType_iff] at h h'
  exact Except.ok.inj (h.symm.trans h')

theorem letter_inj {x x' : Char} {ty : String} (h : (x, ty) ∈ anaphLetters) (h' : (x', ty) ∈ anaphLetters) : x = x' := by
  simp only [anaphLetters, List.mem_cons, List.not_mem_nil, or_false, Prod.mk.injEq] at h h'
  rcases h with ⟨rfl, rfl⟩ | ⟨rfl, rfl⟩ | ⟨rfl, rfl⟩ | ⟨rfl, rfl⟩ <;> rcases h' with ⟨rfl, h⟩ | ⟨rfl, h⟩ | ⟨rfl, h⟩ | ⟨rfl, h⟩ <;> first | rfl | (exact absurd h (by decide))

theorem annotationLetter_ok {v : Val} {x : Char} : annotationLetter v = .ok x ↔ ∃ ty, v = .atom (.str ty) ∧ (x, ty) ∈ anaphLetters := by
  constructor
  · intro h
    unfold annotationLetter at h
    split at h
    · next s =>
      split at h
      · next c hf =>
        obtain rfl := Except.ok.inj h
        refine ⟨s, rfl, ?_⟩
        have hm := find_some_mem hf
        simp only [annotationTypes, List.map_cons, List.map_nil, List.mem_cons, List.not_mem_nil, or_false, Prod.mk.injEq] at hm
        rcases hm with ⟨rfl, rfl⟩ | ⟨rfl, rfl⟩ | ⟨rfl, rfl⟩ | ⟨rfl, rfl⟩ <;> decide
      · cases h
    · cases h
  · rintro ⟨ty, rfl, h⟩
    simp only [anaphLetters, List.mem_cons, List.not_mem_nil, or_false, Prod.mk.injEq] at h
    rcases h with ⟨rfl, rfl⟩ | ⟨rfl, rfl⟩ | ⟨rfl, rfl⟩ | ⟨rfl, rfl⟩ <;> rfl

/-- the word that is written for an annotated token is read as the same annotation, with a question mark -/
theorem annotated_written {t : List Char} {x : Char} {ty : String} (ht : t ∈ anaphors) (hx : (x, ty) ∈ anaphLetters) : Annotated (t ++ '/' :: x :: ['?']) t ty true :=
  ⟨0, ⟨ht, x, ['?'], hx, rfl, by simp⟩, by simp⟩

/-- a word that can be annotated does not contain an annotation -/
theorem unannotated_anaphor {t : List Char} (ht : t ∈ anaphors) : Unannotated t := by
  simp only [anaphors, List.mem_cons, List.not_mem_nil, or_false] at ht
  rcases ht with rfl | rfl | rfl | rfl <;> exact anaphSearch_none rfl

namespace DG

/-- what the calls make of a node that is mentioned in one `add_node` only -/
theorem Built.single {g g' : DG} {s : List Instr} {m : NodeId} {ls : List String} {at' : Attrs} (hb : Built g s g') (hnew : ¬ g.HasNode m) (h : .node m ls at' ∈ s)
    (huniq : ∀ ls2 at2, .node m ls2 at2 ∈ s → ls2 = ls ∧ at2 = at') (hattr : ∀ k v, .attr m k v ∉ s) (hns : g.ns ∈ ls) : g'.NodeIs m at' ls := by
  constructor
  · intro k hk
    rw [hb.attr m k hk]
    have hold : g.nodeAttr m k = none := by
      have : g.nodeAttrs m = none := by
        cases he : g.nodeAttrs m with
        | none => rfl
        | some a => exact absurd ((hasNode_some g m).2 ⟨a, he⟩) hnew
      unfold nodeAttr; rw [this]; rfl
    rw [hold, Option.or_none]
    have hw : ∀ i ∈ s, ∀ v, i.write m k = some v → find at' k = some v := by
      intro i hi v hv
      cases i with
      | node n ls2 at2 =>
        simp only [Instr.write] at hv
        split at hv
        · next e => subst e; rw [← (huniq ls2 at2 hi).2]; exact hv
        · cases hv
      | attr n k' v' =>
        simp only [Instr.write] at hv
        split at hv
        · next e => obtain ⟨rfl, rfl⟩ := e; exact absurd hi (hattr _ _)
        · cases hv
      | edge => cases hv
      | token => cases hv
      | sentence => cases hv
    cases hf : find at' k with
    | none => 
      apply lastWrite_none
      intro i hi
      cases hv : i.write m k with
      | none => rfl
      | some v => have := hw i hi v hv; rw [hf] at this; cases this
    | some v =>
      apply lastWrite_unique
      · exact ⟨_, h, by simp [Instr.write, hf]⟩
      · intro i hi v' hv'
        have := hw i hi v' hv'
        rw [hf] at this
        exact (Option.some.inj this).symm
  · intro l
    rw [hb.layer m l]
    constructor
    · rintro (h1 | ⟨i, hi, hg⟩ | ⟨_, _, rfl⟩)
      · exfalso
        apply hnew
        unfold NodeLayer at h1
        rw [hasNode_some]
        obtain ⟨a, ha, _⟩ := h1
        exact ⟨a, ha⟩
      · cases i with
        | node n ls2 at2 =>
          obtain ⟨rfl, hl⟩ := hg
          rw [← (huniq ls2 at2 hi).1]
          exact hl
        | edge => exact hg.elim
        | attr => exact hg.elim
        | token => exact hg.elim
        | sentence => exact hg.elim
      · exact List.mem_map.2 ⟨_, hns, rfl⟩
    · intro hl
      exact .inr (.inl ⟨_, h, rfl, hl⟩)

end DG
end Dg
