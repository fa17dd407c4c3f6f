import Verif.Model.Py

namespace Dg
namespace Dict
variable {K V : Type} [DecidableEq K]

@[simp] theorem find_nil (k : K) : find ([] : Dict K V) k = none := rfl

@[simp] theorem find_cons (k' : K) (v : V) (d : Dict K V) (k : K) :
    find ((k', v) :: d) k = if k' = k then some v else find d k := rfl

theorem find_put (d : Dict K V) (k k' : K) (v : V) :
    find (put d k v) k' = if k = k' then some v else find d k' := by
  induction d with
  | nil => simp [put]
  | cons p d ih =>
    obtain ⟨k0, v0⟩ := p
    simp only [put]
    by_cases h : k0 = k
    · subst h
      by_cases h2 : k0 = k' <;> simp [h2]
    · simp only [h, if_false, find_cons, ih]
      by_cases h2 : k0 = k'
      · subst h2; simp [Ne.symm h]
      · simp [h2]

@[simp] theorem find_put_self (d : Dict K V) (k : K) (v : V) : find (put d k v) k = some v := by
  simp [find_put]

theorem find_put_ne (d : Dict K V) {k k' : K} (v : V) (h : k ≠ k') :
    find (put d k v) k' = find d k' := by simp [find_put, h]

theorem find_append (d e : Dict K V) (k : K) :
    find (d ++ e) k = (find d k).or (find e k) := by
  induction d with
  | nil => simp
  | cons p d ih =>
    obtain ⟨k0, v0⟩ := p
    by_cases h : k0 = k <;> simp [h, ih]

theorem find_del (d : Dict K V) (k k' : K) :
    find (del d k) k' = if k = k' then none else find d k' := by
  induction d with
  | nil => simp [del]
  | cons p d ih =>
    obtain ⟨k0, v0⟩ := p
    simp only [del] at ih
    by_cases h : k0 = k
    · subst h
      by_cases h2 : k0 = k'
      · simp [del, h2] at *
        simpa [h2] using ih
      · simp [del, h2]; simpa [h2] using ih
    · by_cases h2 : k0 = k'
      · subst h2; simp [del, h, Ne.symm h]
      · simp [del, h, h2]; simpa using ih

theorem mem_keys_iff (d : Dict K V) (k : K) : k ∈ keys d ↔ ∃ v, find d k = some v := by
  induction d with
  | nil => simp [keys]
  | cons p d ih =>
    obtain ⟨k0, v0⟩ := p
    by_cases h : k0 = k
    · simp [keys, h]
    · simp only [keys, List.map_cons, List.mem_cons, find_cons, h, if_false]
      simp only [keys] at ih
      rw [ih]
      simp [Ne.symm h]

theorem find_eq_none_iff (d : Dict K V) (k : K) : find d k = none ↔ k ∉ keys d := by
  rw [mem_keys_iff]
  cases find d k <;> simp

@[simp] theorem has_iff (d : Dict K V) (k : K) : has d k = true ↔ k ∈ keys d := by
  rw [mem_keys_iff]
  unfold has
  cases find d k <;> simp

theorem has_false_iff (d : Dict K V) (k : K) : has d k = false ↔ k ∉ keys d := by
  rw [← has_iff]; cases has d k <;> simp

theorem find_some_mem {d : Dict K V} {k : K} {v : V} (h : find d k = some v) : (k, v) ∈ d := by
  induction d with
  | nil => simp at h
  | cons p d ih =>
    obtain ⟨k0, v0⟩ := p
    by_cases h2 : k0 = k
    · simp [h2] at h; simp [h2, h]
    · simp [h2] at h; exact List.mem_cons_of_mem _ (ih h)

theorem mem_find {d : Dict K V} {k : K} {v : V} (nd : (keys d).Nodup) (h : (k, v) ∈ d) :
    find d k = some v := by
  induction d with
  | nil => simp at h
  | cons p d ih =>
    obtain ⟨k0, v0⟩ := p
    simp only [keys, List.map_cons, List.nodup_cons] at nd
    simp only [List.mem_cons, Prod.mk.injEq] at h
    rcases h with ⟨rfl, rfl⟩ | h
    · simp
    · have : k0 ≠ k := by
        rintro rfl
        exact nd.1 (List.mem_map.2 ⟨_, h, rfl⟩)
      simp [this]
      exact ih nd.2 h

theorem mem_iff_find {d : Dict K V} (nd : (keys d).Nodup) (k : K) (v : V) :
    (k, v) ∈ d ↔ find d k = some v := ⟨mem_find nd, find_some_mem⟩

theorem keys_put (d : Dict K V) (k : K) (v : V) :
    keys (put d k v) = if k ∈ keys d then keys d else keys d ++ [k] := by
  induction d with
  | nil => simp [put, keys]
  | cons p d ih =>
    obtain ⟨k0, v0⟩ := p
    simp only [put]
    by_cases h : k0 = k
    · simp [h, keys]
    · simp only [h, if_false]
      simp only [keys, List.map_cons] at ih ⊢
      rw [ih]
      by_cases h2 : k ∈ d.map Prod.fst
      · simp [h2]
      · simp [h2, Ne.symm h]

theorem mem_keys_put (d : Dict K V) (k k' : K) (v : V) :
    k' ∈ keys (put d k v) ↔ k' ∈ keys d ∨ k' = k := by
  rw [keys_put]
  split
  · constructor
    · exact Or.inl
    · rintro (h | rfl) <;> assumption
  · simp

theorem keys_put_of_mem (d : Dict K V) (k : K) (v : V) (h : k ∈ keys d) :
    keys (put d k v) = keys d := by simp [keys_put, h]

theorem nodup_put {d : Dict K V} (nd : (keys d).Nodup) (k : K) (v : V) :
    (keys (put d k v)).Nodup := by
  rw [keys_put]
  split
  · exact nd
  · rename_i h
    rw [List.nodup_append]
    refine ⟨nd, by simp, ?_⟩
    intro a ha b hb
    simp at hb
    subst hb
    rintro rfl
    exact h ha

theorem put_of_not_mem (d : Dict K V) (k : K) (v : V) (h : k ∉ keys d) :
    put d k v = d ++ [(k, v)] := by
  induction d with
  | nil => simp [put]
  | cons p d ih =>
    obtain ⟨k0, v0⟩ := p
    simp only [keys, List.map_cons, List.mem_cons, not_or] at h
    simp [put, Ne.symm h.1, ih h.2]

theorem keys_del (d : Dict K V) (k : K) : keys (del d k) = (keys d).filter (fun x => decide (x ≠ k)) := by
  simp [keys, del, List.filter_map, Function.comp_def]

theorem nodup_del {d : Dict K V} (nd : (keys d).Nodup) (k : K) : (keys (del d k)).Nodup := by
  rw [keys_del]; exact List.Pairwise.filter _ nd

@[simp] theorem upd_nil (d : Dict K V) : upd d [] = d := rfl

@[simp] theorem upd_cons (d e : Dict K V) (p : K × V) :
    upd d (p :: e) = upd (put d p.1 p.2) e := rfl

theorem nodup_upd {d : Dict K V} (nd : (keys d).Nodup) (e : Dict K V) : (keys (upd d e)).Nodup := by
  induction e generalizing d with
  | nil => simpa
  | cons p e ih => exact ih (nodup_put nd _ _)

theorem mem_keys_upd (d e : Dict K V) (k : K) :
    k ∈ keys (upd d e) ↔ k ∈ keys d ∨ k ∈ keys e := by
  induction e generalizing d with
  | nil => simp [keys]
  | cons p e ih =>
    rw [upd_cons, ih, mem_keys_put]
    simp only [keys, List.map_cons, List.mem_cons]
    constructor
    · rintro ((h | h) | h) <;> simp [h]
    · rintro (h | h | h) <;> simp [h]

/-- `d.update(e)` for a dict `e` (unique keys): `e` wins. -/
theorem find_upd (d : Dict K V) {e : Dict K V} (nd : (keys e).Nodup) (k : K) :
    find (upd d e) k = (find e k).or (find d k) := by
  induction e generalizing d with
  | nil => simp
  | cons p e ih =>
    obtain ⟨k0, v0⟩ := p
    simp only [keys, List.map_cons, List.nodup_cons] at nd
    rw [upd_cons, ih _ nd.2, find_put, find_cons]
    by_cases h : k0 = k
    · subst h
      have : find e k0 = none := (find_eq_none_iff _ _).2 nd.1
      simp [this]
    · simp [h]

/-- Without the uniqueness assumption: keys outside `e` are untouched. -/
theorem find_upd_not_mem (d e : Dict K V) (k : K) (h : k ∉ keys e) :
    find (upd d e) k = find d k := by
  induction e generalizing d with
  | nil => simp
  | cons p e ih =>
    obtain ⟨k0, v0⟩ := p
    simp only [keys, List.map_cons, List.mem_cons, not_or] at h
    rw [upd_cons, ih _ h.2, find_put_ne _ _ (Ne.symm h.1)]

/-- rebuilding a dict from its items -/
theorem upd_of_disjoint (d e : Dict K V) (nd : (keys e).Nodup) (hd : ∀ k ∈ keys e, k ∉ keys d) : upd d e = d ++ e := by
  induction e generalizing d with
  | nil => simp
  | cons p e ih =>
    obtain ⟨k, v⟩ := p
    have h1 : k ∉ keys e := by simp [keys] at nd ⊢; exact nd.1
    have h2 : (keys e).Nodup := by simp [keys] at nd ⊢; exact nd.2
    show upd (put d k v) e = _
    rw [put_of_not_mem _ _ _ (hd k (by simp [keys])), ih _ h2]
    · simp
    · intro x hx hx2
      simp only [keys, List.map_append, List.mem_append, List.map_cons, List.map_nil, List.mem_singleton] at hx2
      rcases hx2 with h | h
      · exact hd x (by simp only [keys, List.map_cons, List.mem_cons]; right; exact hx) h
      · subst h; exact h1 hx

theorem upd_nil_of_nodup {e : Dict K V} (nd : (keys e).Nodup) : upd [] e = e := by
  rw [upd_of_disjoint _ _ nd (by simp [keys])]; rfl

theorem put_find_self {d : Dict K V} {k : K} {v : V} (h : find d k = some v) : put d k v = d := by
  induction d with
  | nil => simp at h
  | cons p d ih =>
    obtain ⟨k0, v0⟩ := p
    by_cases h2 : k0 = k
    · simp [h2] at h; simp [put, h2, h]
    · simp [h2] at h; simp [put, h2, ih h]

theorem put_put (d : Dict K V) (k : K) (v w : V) : put (put d k v) k w = put d k w := by
  induction d with
  | nil => simp [put]
  | cons p d ih =>
    obtain ⟨k0, v0⟩ := p
    by_cases h : k0 = k
    · simp [put, h]
    · simp [put, h, ih]

theorem find_mapVal {W : Type} (d : Dict K V) (f : V → W) (k : K) :
    find (d.map (fun p => (p.1, f p.2))) k = (find d k).map f := by
  induction d with
  | nil => simp
  | cons p d ih =>
    obtain ⟨k0, v0⟩ := p
    by_cases h : k0 = k
    · simp [h]
    · simp [h, ih]

omit [DecidableEq K] in
theorem keys_mapVal {W : Type} (d : Dict K V) (f : V → W) :
    keys (d.map (fun p => (p.1, f p.2))) = keys d := by
  simp [keys, Function.comp_def]

end Dict

section sets
variable {α : Type} [DecidableEq α]

@[simp] theorem mem_setUnion (s t : List α) (x : α) : x ∈ setUnion s t ↔ x ∈ s ∨ x ∈ t := by
  simp only [setUnion, List.mem_append, List.mem_filter, decide_eq_true_eq]
  by_cases h : x ∈ s <;> simp [h]

@[simp] theorem mem_setAdd (s : List α) (y x : α) : x ∈ setAdd s y ↔ x ∈ s ∨ x = y := by
  unfold setAdd
  split
  · constructor
    · exact Or.inl
    · rintro (h | rfl) <;> assumption
  · simp

theorem setUnion_ne_nil_left {s : List α} (t : List α) (h : s ≠ []) : setUnion s t ≠ [] := by
  cases s <;> simp_all [setUnion]

theorem setUnion_ne_nil_right (s : List α) {t : List α} (h : t ≠ []) : setUnion s t ≠ [] := by
  intro h2
  cases t with
  | nil => exact h rfl
  | cons a t =>
    have : a ∈ setUnion s (a :: t) := by simp
    rw [h2] at this; simp at this

theorem nodup_setUnion {s t : List α} (hs : s.Nodup) (ht : t.Nodup) : (setUnion s t).Nodup := by
  unfold setUnion
  rw [List.nodup_append]
  refine ⟨hs, List.Pairwise.filter _ ht, ?_⟩
  intro a ha b hb hab
  subst hab
  simp [ha] at hb

theorem nodup_setAdd {s : List α} (hs : s.Nodup) (x : α) : (setAdd s x).Nodup := by
  unfold setAdd; split
  · exact hs
  · rename_i h
    rw [List.nodup_append]
    refine ⟨hs, by simp, ?_⟩
    intro a ha b hb hab
    simp at hb; subst hab hb; exact h ha

end sets
end Dg
