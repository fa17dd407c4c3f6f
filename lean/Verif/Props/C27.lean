import Verif.Model.Util
import Verif.Lemmas.Dict
import Verif.Lemmas.Offsets

/-! C27: TokenMapper and get_segment_token_offsets. -/

namespace Dg
open Dict

theorem tokenMapperLoop_spec (ts : List NodeId) : ∀ (i : Nat) (m : Dict NodeId Nat × Dict Nat NodeId),
    (∀ j, i ≤ j → find m.2 j = none) → (∀ t ∈ ts, find m.1 t = none) → ts.Nodup →
    (∀ t, find (tokenMapperLoop i ts m).1 t = if t ∈ ts then some (i + ts.idxOf t) else find m.1 t) ∧
    (∀ j, find (tokenMapperLoop i ts m).2 j = if i ≤ j then ts[j - i]? else find m.2 j) := by
  induction ts with
  | nil =>
    intro i m h _ _
    refine ⟨by simp [tokenMapperLoop], ?_⟩
    intro j
    simp only [tokenMapperLoop]
    split
    · rename_i hj; rw [h j hj]; simp
    · rfl
  | cons t ts ih =>
    intro i m h1 h2 nd
    rw [List.nodup_cons] at nd
    obtain ⟨p, q⟩ := ih (i + 1) (put m.1 t i, put m.2 i t)
      (by intro j hj; rw [find_put_ne _ _ (by omega)]; exact h1 j (by omega))
      (by
        intro x hx
        rw [find_put_ne _ _ (by rintro rfl; exact nd.1 hx)]
        exact h2 x (List.mem_cons_of_mem _ hx)) nd.2
    simp only [tokenMapperLoop]
    refine ⟨?_, ?_⟩
    · intro x
      rw [p x]
      by_cases hx : x = t
      · subst hx; simp [nd.1, find_put]
      · have hx' : t ≠ x := fun h => hx h.symm
        have : (t == x) = false := by simpa using hx'
        simp only [List.mem_cons, hx, false_or, find_put_ne m.1 i hx', List.idxOf_cons, this, cond_false]
        split
        · rw [show i + 1 + List.idxOf x ts = i + (List.idxOf x ts + 1) by omega]
        · rfl
    · intro j
      rw [q j]
      by_cases hj : i + 1 ≤ j
      · rw [if_pos hj, if_pos (by omega), show j - i = (j - (i + 1)) + 1 by omega]; rfl
      · rw [if_neg hj]
        by_cases hi : i ≤ j
        · have : j = i := by omega
          subst this
          simp [find_put]
        · rw [if_neg hi, find_put_ne _ _ (by omega)]

/-- **C27 (bijection)**.  For a document whose tokens are pairwise different, `index2id[i]` is the i-th token, and `id2index` is the inverse of
`index2id`: `id2index[t] = i` iff `t` is the i-th token.  Neither dict has any further entry. -/
theorem c27_token_mapper_is_bijection (g : DG) (nd : g.tokens.Nodup) (t : NodeId) (i : Nat) :
    (find (tokenMapper g).2 i = some t ↔ g.tokens[i]? = some t) ∧ (find (tokenMapper g).1 t = some i ↔ g.tokens[i]? = some t) := by
  obtain ⟨p, q⟩ := tokenMapperLoop_spec g.tokens 0 ([], []) (by simp [find]) (by simp [find]) nd
  refine ⟨?_, ?_⟩
  · unfold tokenMapper; rw [q i]; simp
  · unfold tokenMapper
    rw [p t]
    simp only [Nat.zero_add]
    constructor
    · intro h
      split at h
      · rename_i hm
        injection h with h
        rw [← h, List.getElem?_eq_getElem (List.idxOf_lt_length_of_mem hm), List.getElem_idxOf]
      · simp [find] at h
    · intro h
      have hm := List.mem_of_getElem? h
      rw [if_pos hm]
      obtain ⟨hi, he⟩ := List.getElem?_eq_some_iff.1 h
      rw [← he, nd.idxOf_getElem]

/-- a document in which a token ID occurs twice -/
def twiceDoc : DG := { DG.init "" "a" none with tokens := [.str "t", .str "u", .str "t"] }

/-- repeated token IDs: `id2index` gives the last position -/
example : find (tokenMapper twiceDoc).1 (.str "t") = some 2 := by decide

example : (tokenMapper { DG.init "" "a" none with tokens := [.str "t", .str "u"] }) = ([(.str "t", 0), (.str "u", 1)], [(0, .str "t"), (1, .str "u")]) := by decide

theorem tokenIndices_spec (m : Dict NodeId Nat) (ts : List NodeId) :
    (∀ is, tokenIndices m ts = .ok is → List.Forall₂ (fun t i => find m t = some i) ts is) ∧
    ((∀ t ∈ ts, ∃ i, find m t = some i) → ∃ is, tokenIndices m ts = .ok is) ∧
    ((∃ t ∈ ts, find m t = none) → tokenIndices m ts = .error .key) := by
  induction ts with
  | nil => exact ⟨by intro is h; simp [tokenIndices] at h; subst h; exact .nil, fun _ => ⟨[], rfl⟩, by simp⟩
  | cons t ts ih =>
    obtain ⟨p, q, r⟩ := ih
    refine ⟨?_, ?_, ?_⟩
    · intro is h
      simp only [tokenIndices] at h
      cases hf : find m t with
      | none => rw [hf] at h; simp [bind, Except.bind] at h
      | some i =>
        rw [hf] at h
        cases hr : tokenIndices m ts with
        | error e => rw [hr] at h; simp [bind, Except.bind] at h
        | ok js =>
          rw [hr] at h
          simp [bind, Except.bind] at h
          subst h
          exact .cons hf (p js hr)
    · intro h
      obtain ⟨i, hi⟩ := h t (by simp)
      obtain ⟨is, his⟩ := q (fun x hx => h x (List.mem_cons_of_mem _ hx))
      exact ⟨i :: is, by simp [tokenIndices, hi, his, bind, Except.bind]⟩
    · rintro ⟨x, hx, hn⟩
      simp only [tokenIndices]
      cases hf : find m t with
      | none => simp [bind, Except.bind]
      | some i =>
        have : x ∈ ts := by
          rcases List.mem_cons.1 hx with rfl | hx
          · rw [hf] at hn; simp at hn
          · exact hx
        rw [r ⟨x, this, hn⟩]; simp [bind, Except.bind]

theorem foldl_min_spec (is : List Nat) : ∀ i, (is.foldl min i ∈ i :: is) ∧ ∀ j ∈ i :: is, is.foldl min i ≤ j := by
  induction is with
  | nil => intro i; simp
  | cons k is ih =>
    intro i
    obtain ⟨p, q⟩ := ih (min i k)
    simp only [List.foldl_cons]
    refine ⟨?_, ?_⟩
    · rcases List.mem_cons.1 p with h | h
      · rw [h]; rcases Nat.le_total i k with hik | hik
        · simp [Nat.min_eq_left hik]
        · simp [Nat.min_eq_right hik]
      · simp [h]
    · intro j hj
      simp only [List.mem_cons] at hj
      have h0 := q (min i k) (by simp)
      rcases hj with rfl | rfl | hj
      · omega
      · omega
      · exact q j (by simp [hj])

theorem foldl_max_spec (is : List Nat) : ∀ i, (is.foldl max i ∈ i :: is) ∧ ∀ j ∈ i :: is, j ≤ is.foldl max i := by
  induction is with
  | nil => intro i; simp
  | cons k is ih =>
    intro i
    obtain ⟨p, q⟩ := ih (max i k)
    simp only [List.foldl_cons]
    refine ⟨?_, ?_⟩
    · rcases List.mem_cons.1 p with h | h
      · rw [h]; rcases Nat.le_total i k with hik | hik
        · simp [Nat.max_eq_right hik]
        · simp [Nat.max_eq_left hik]
      · simp [h]
    · intro j hj
      simp only [List.mem_cons] at hj
      have h0 := q (max i k) (by simp)
      rcases hj with rfl | rfl | hj
      · omega
      · omega
      · exact q j (by simp [hj])

/-- **C27 (segments)**.  For a non-empty list of tokens of the document in any order, get_segment_token_offsets returns `(a, b)` where `a` and `b` are
positions of tokens of the segment and all tokens of the segment lie in between. -/
theorem c27_segment_offsets (g : DG) (nd : g.tokens.Nodup) (seg : List NodeId) (hne : seg ≠ []) (hin : ∀ t ∈ seg, t ∈ g.tokens) :
    ∃ a b, getSegmentTokenOffsets seg (tokenMapper g).1 = .ok (a, b) ∧
      (∃ t ∈ seg, g.tokens[a]? = some t) ∧ (∃ t ∈ seg, g.tokens[b]? = some t) ∧
      ∀ t ∈ seg, ∃ i : Nat, g.tokens[i]? = some t ∧ a ≤ i ∧ i ≤ b := by
  have hfind : ∀ t i, find (tokenMapper g).1 t = some i ↔ g.tokens[i]? = some t := fun t i => (c27_token_mapper_is_bijection g nd t i).2
  obtain ⟨p, q, _⟩ := tokenIndices_spec (tokenMapper g).1 seg
  obtain ⟨is, his⟩ := q (by
    intro t ht
    obtain ⟨i, hi⟩ := List.mem_iff_getElem?.1 (hin t ht)
    exact ⟨i, (hfind t i).2 hi⟩)
  have hf := p is his
  cases is with
  | nil => cases hf; exact absurd rfl hne
  | cons i is =>
    refine ⟨is.foldl min i, is.foldl max i, ?_, ?_, ?_, ?_⟩
    · unfold getSegmentTokenOffsets; rw [his]; rfl
    all_goals
      have hback : ∀ {ts : List NodeId} {js : List Nat}, List.Forall₂ (fun t i => find (tokenMapper g).1 t = some i) ts js →
          (∀ j ∈ js, ∃ t ∈ ts, g.tokens[j]? = some t) ∧ (∀ t ∈ ts, ∃ j ∈ js, g.tokens[j]? = some t) := by
        intro ts js h
        induction h with
        | nil => simp
        | @cons t j ts js h1 _ ih =>
          have h1' := (hfind t j).1 h1
          refine ⟨?_, ?_⟩
          · intro k hk
            rcases List.mem_cons.1 hk with rfl | hk
            · exact ⟨t, by simp, h1'⟩
            · obtain ⟨x, hx, hx'⟩ := ih.1 k hk; exact ⟨x, List.mem_cons_of_mem _ hx, hx'⟩
          · intro x hx
            rcases List.mem_cons.1 hx with rfl | hx
            · exact ⟨j, by simp, h1'⟩
            · obtain ⟨k, hk, hk'⟩ := ih.2 x hx; exact ⟨k, List.mem_cons_of_mem _ hk, hk'⟩
    · exact (hback hf).1 _ (foldl_min_spec is i).1
    · exact (hback hf).1 _ (foldl_max_spec is i).1
    · intro t ht
      obtain ⟨j, hj, hj'⟩ := (hback hf).2 t ht
      exact ⟨j, hj', (foldl_min_spec is i).2 j hj, (foldl_max_spec is i).2 j hj⟩

/-- **C27 (errors)**: a token that is not in the document raises KeyError, an empty segment ValueError -/
theorem c27_segment_errors (g : DG) (nd : g.tokens.Nodup) (seg : List NodeId) :
    ((∃ t ∈ seg, t ∉ g.tokens) → getSegmentTokenOffsets seg (tokenMapper g).1 = .error .key) ∧
    (seg = [] → getSegmentTokenOffsets seg (tokenMapper g).1 = .error .value) := by
  refine ⟨?_, ?_⟩
  · rintro ⟨t, ht, hn⟩
    have : find (tokenMapper g).1 t = none := by
      cases h : find (tokenMapper g).1 t with
      | none => rfl
      | some i =>
        have := (c27_token_mapper_is_bijection g nd t i).2.1 h
        exact absurd (List.mem_of_getElem? this) hn
    unfold getSegmentTokenOffsets
    rw [(tokenIndices_spec (tokenMapper g).1 seg).2.2 ⟨t, ht, this⟩]; rfl
  · rintro rfl; rfl

/-- a segment given in the wrong order -/
example : let g : DG := { DG.init "" "a" none with tokens := [.str "a", .str "b", .str "c", .str "d"] }
    g.tokens.Nodup ∧ getSegmentTokenOffsets [.str "d", .str "b", .str "c"] (tokenMapper g).1 = .ok (1, 3) := by decide

end Dg
