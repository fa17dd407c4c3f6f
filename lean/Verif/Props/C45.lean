import Verif.Model.Util
import Verif.Lemmas.Dict
import Mathlib.Data.List.Nodup

/-! C45: ensure_xpointer_compatibility, add_prefix, create_multiple_replace_func. -/

namespace Dg
open Dict

/-- **C45 (xpointer)**.  The result contains no colon, has the same length, and at every position either the character is unchanged or a colon became an underscore; ints
are returned as they are. -/
theorem c45_xpointer (s : String) : ∃ r, ensureXpointer (.str s) = .str r ∧ ':' ∉ r.toList ∧ r.toList.length = s.toList.length ∧
    ∀ (i : Nat) c, s.toList[i]? = some c → r.toList[i]? = some (if c = ':' then '_' else c) := by
  refine ⟨_, rfl, ?_, ?_, ?_⟩
  · simp only [String.toList_ofList, List.mem_map, not_exists, not_and, xpointerChar]
    intro c _ h
    split at h
    · simp at h
    · rename_i hc; exact hc h
  · simp
  · intro i c h
    simp [h, xpointerChar]

theorem c45_xpointer_int (i : Int) : ensureXpointer (.int i) = .int i := rfl

example : ensureXpointer (.str "tiger:s1:n2") = .str "tiger_s1_n2" := by decide

/-- **C45 is lossy by design**: different IDs can become equal -/
theorem c45_xpointer_not_injective : ensureXpointer (.str "a:b") = ensureXpointer (.str "a_b") := by decide

theorem append_left_inj (pre a b : String) : pre ++ a = pre ++ b ↔ a = b := by
  constructor
  · intro h
    have := congrArg String.toList h
    simp only [String.toList_append] at this
    exact String.toList_inj.1 (List.append_cancel_left this)
  · rintro rfl; rfl

theorem addPrefix_spec {V : Type} (pre : String) : ∀ (d acc : Dict String V), (keys d).Nodup → (∀ k ∈ keys d, find acc (pre ++ k) = none) →
    d.foldl (fun acc kv => put acc (pre ++ kv.1) kv.2) acc = acc ++ d.map (fun kv => (pre ++ kv.1, kv.2)) := by
  intro d
  induction d with
  | nil => intro acc _ _; simp
  | cons kv d ih =>
    intro acc nd h
    simp only [keys, List.map_cons, List.nodup_cons] at nd
    have hk : pre ++ kv.1 ∉ keys acc := (find_eq_none_iff _ _).1 (h kv.1 (by simp [keys]))
    simp only [List.foldl_cons]
    rw [put_of_not_mem _ _ _ hk, ih _ nd.2 ?_]
    · simp
    · intro k hk'
      rw [find_append, h k (by simp only [keys, List.map_cons, List.mem_cons]; exact Or.inr hk')]
      have : ¬ pre ++ kv.1 = pre ++ k := by
        rw [append_left_inj]; rintro rfl; exact nd.1 hk'
      simp [find, this]

/-- **C45 (add_prefix)**.  For every dict, the result has exactly the keys `prefix + k`, each with the value of `k`. -/
theorem c45_add_prefix {V : Type} (d : Dict String V) (nd : (keys d).Nodup) (pre : String) :
    (keys (addPrefix d pre)).Nodup ∧ (∀ k, find (addPrefix d pre) (pre ++ k) = find d k) ∧
    ∀ k', k' ∈ keys (addPrefix d pre) → ∃ k ∈ keys d, k' = pre ++ k := by
  have h : addPrefix d pre = d.map (fun kv => (pre ++ kv.1, kv.2)) := by
    unfold addPrefix; rw [addPrefix_spec pre d [] nd (by simp [find])]; simp
  rw [h]
  refine ⟨?_, ?_, ?_⟩
  · have : keys (d.map (fun kv => (pre ++ kv.1, kv.2))) = (keys d).map (pre ++ ·) := by simp [keys, Function.comp_def]
    rw [this]
    exact List.Nodup.map (fun a b hab => (append_left_inj pre a b).1 hab) nd
  · intro k
    clear h nd
    induction d with
    | nil => rfl
    | cons kv d ih => simp only [List.map_cons, find, append_left_inj]; split <;> [rfl; exact ih]
  · intro k' hk
    simp only [keys, List.map_map, List.mem_map, Function.comp] at hk
    obtain ⟨kv, hkv, rfl⟩ := hk
    exact ⟨kv.1, List.mem_map_of_mem (f := Prod.fst) hkv, rfl⟩

example : addPrefix [("pos", 1), ("lemma", 2)] "tiger:" = [("tiger:pos", 1), ("tiger:lemma", 2)] := by decide

/-- Specification of replacing in a single left-to-right pass: wherever a key starts, it is replaced and the pass goes on behind it; where no key starts, the character is kept. -/
inductive Replaced (d : List (List Char × List Char)) : List Char → List Char → Prop
  | done : Replaced d [] []
  | hit {k v rest out} : (k, v) ∈ d → Replaced d rest out → Replaced d (k ++ rest) (v ++ out)
  | miss {c rest out} : (∀ kv ∈ d, ¬ kv.1 <+: (c :: rest)) → Replaced d rest out → Replaced d (c :: rest) (c :: out)

theorem xlat_drop (d : List (List Char × List Char)) : ∀ n (cs : List Char), xlat d n cs = xlat d 0 (cs.drop n) := by
  intro n
  induction n with
  | zero => intro cs; simp
  | succ n ih =>
    intro cs
    cases cs with
    | nil => simp [xlat]
    | cons c cs => simp only [xlat, List.drop_succ_cons]; exact ih cs

theorem xlat_replaced (d : List (List Char × List Char)) (hne : ∀ kv ∈ d, kv.1 ≠ []) : ∀ n (cs : List Char), cs.length ≤ n → Replaced d cs (xlat d 0 cs) := by
  intro n
  induction n with
  | zero => intro cs h; have : cs = [] := List.length_eq_zero_iff.1 (by omega); subst this; exact .done
  | succ n ih =>
    intro cs h
    cases cs with
    | nil => exact .done
    | cons c cs =>
      simp only [xlat]
      cases hk : firstKey d (c :: cs) with
      | none =>
        refine .miss ?_ (ih cs (by simp at h; omega))
        intro kv hkv hp
        unfold firstKey at hk
        have := List.find?_eq_none.1 hk kv hkv
        exact this (by simpa using hp)
      | some kv =>
        unfold firstKey at hk
        have hm := List.mem_of_find?_eq_some hk
        have hp := List.find?_some hk
        simp only [List.isPrefixOf_iff_prefix] at hp
        obtain ⟨rest, hr⟩ := hp
        simp only
        rw [xlat_drop]
        obtain ⟨k, v⟩ := kv
        cases k with
        | nil => exact absurd rfl (hne _ hm)
        | cons a k =>
          simp only [List.cons_append, List.cons.injEq] at hr
          obtain ⟨rfl, rfl⟩ := hr
          have hd : (k ++ rest).drop ((a :: k).length - 1) = rest := by simp
          rw [hd]
          exact Replaced.hit (k := a :: k) hm (ih rest (by simp at h; omega))

/-- **C45 (single pass)**.  The function returned by create_multiple_replace_func, for a dict with non-empty keys, replaces in a single left-to-right pass. -/
theorem c45_single_pass (d : Dict String String) (hd : d ≠ []) (hne : ∀ kv ∈ d, kv.1 ≠ "") (text : String) :
    ∃ r, multipleReplace d text = .ok r ∧ Replaced (d.map (fun kv => (kv.1.toList, kv.2.toList))) text.toList r.toList := by
  unfold multipleReplace
  rw [if_neg (by simpa using hd)]
  refine ⟨_, rfl, ?_⟩
  rw [String.toList_ofList]
  apply xlat_replaced _ _ _ _ (Nat.le_refl _)
  intro kv hkv
  obtain ⟨p, hp, rfl⟩ := List.mem_map.1 hkv
  have := hne p hp
  simp only [ne_eq]
  intro h
  exact this (String.toList_inj.1 (by simpa using h))

/-- no key is a proper prefix of another key -/
def PrefixFree (d : List (List Char × List Char)) : Prop := ∀ kv ∈ d, ∀ kv' ∈ d, kv.1 <+: kv'.1 → kv = kv'

theorem replaced_unique {d : List (List Char × List Char)} (hp : PrefixFree d) (hne : ∀ kv ∈ d, kv.1 ≠ []) {s t : List Char} (h : Replaced d s t) :
    ∀ {t'}, Replaced d s t' → t = t' := by
  have key : ∀ {s s' t' : List Char}, s = s' → Replaced d s' t' → (s = [] → t' = []) ∧
      (∀ k v rest, (k, v) ∈ d → s = k ++ rest → ∃ out, t' = v ++ out ∧ Replaced d rest out) ∧
      (∀ c rest, s = c :: rest → (∀ kv ∈ d, ¬ kv.1 <+: s) → ∃ out, t' = c :: out ∧ Replaced d rest out) := by
    intro s s' t' hs h'
    subst hs
    cases h' with
    | done =>
      refine ⟨fun _ => rfl, ?_, fun c rest h => by simp at h⟩
      intro k v rest hm h
      have : k = [] := (List.append_eq_nil_iff.1 h.symm).1
      exact absurd this (hne _ hm)
    | @hit k0 v0 rest0 out0 hm0 hr0 =>
      refine ⟨?_, ?_, ?_⟩
      · intro h
        have : k0 = [] := (List.append_eq_nil_iff.1 h).1
        exact absurd this (hne _ hm0)
      · intro k v rest hm h
        have hpre : (k0, v0) = (k, v) := by
          rcases List.prefix_or_prefix_of_prefix (l₁ := k0) (l₂ := k) (l₃ := k0 ++ rest0) ⟨_, rfl⟩ ⟨rest, h.symm⟩ with h1 | h1
          · exact hp _ hm0 _ hm h1
          · exact (hp _ hm _ hm0 h1).symm
        injection hpre with e1 e2
        subst e1; subst e2
        have := List.append_cancel_left h
        subst this
        exact ⟨out0, rfl, hr0⟩
      · intro c rest _ h; exact absurd ⟨rest0, rfl⟩ (h _ hm0)
    | @miss c0 rest0 out0 hno hr0 =>
      refine ⟨by simp, ?_, ?_⟩
      · intro k v rest hm h
        exact absurd ⟨rest, h.symm⟩ (hno _ hm)
      · intro c rest h _
        injection h with e1 e2
        subst e1; subst e2
        exact ⟨out0, rfl, hr0⟩
  induction h with
  | done => intro t' h'; exact ((key rfl h').1 rfl).symm
  | hit hm _ ih =>
    intro t' h'
    obtain ⟨out, rfl, ho⟩ := (key rfl h').2.1 _ _ _ hm rfl
    rw [ih ho]
  | miss hno _ ih =>
    intro t' h'
    obtain ⟨out, rfl, ho⟩ := (key rfl h').2.2 _ _ rfl hno
    rw [ih ho]

/-- **C45 (order of the dict)**.  If no key is a prefix of another key, the result does not depend on the (arbitrary) order in which the dict yields its keys. -/
theorem c45_order_independent (d d' : Dict String String) (hp : d.Perm d') (hd : d ≠ []) (hne : ∀ kv ∈ d, kv.1 ≠ "")
    (hpf : ∀ kv ∈ d, ∀ kv' ∈ d, kv.1.toList <+: kv'.1.toList → kv = kv') (text : String) : multipleReplace d text = multipleReplace d' text := by
  obtain ⟨r, h1, h2⟩ := c45_single_pass d hd hne text
  obtain ⟨r', h1', h2'⟩ := c45_single_pass d' (by rintro rfl; exact hd hp.eq_nil) (fun kv h => hne kv (hp.mem_iff.2 h)) text
  rw [h1, h1']
  have hmem : ∀ kv : List Char × List Char, kv ∈ d'.map (fun kv => (kv.1.toList, kv.2.toList)) → kv ∈ d.map (fun kv => (kv.1.toList, kv.2.toList)) :=
    fun kv h => (hp.map _).mem_iff.2 h
  have h3 : Replaced (d.map (fun kv => (kv.1.toList, kv.2.toList))) text.toList r'.toList := by
    clear h1 h1' h2
    generalize text.toList = s at h2'
    generalize r'.toList = t at h2'
    induction h2' with
    | done => exact .done
    | hit hm _ ih => exact .hit (hmem _ hm) ih
    | miss hno _ ih => exact .miss (fun kv hkv => hno kv ((hp.map _).mem_iff.1 hkv)) ih
  have := replaced_unique (by
    intro kv hkv kv' hkv' hpre
    obtain ⟨p, hp1, rfl⟩ := List.mem_map.1 hkv
    obtain ⟨p', hp1', rfl⟩ := List.mem_map.1 hkv'
    have := hpf p hp1 p' hp1' hpre
    rw [this]) (by
    intro kv hkv
    obtain ⟨p, hp1, rfl⟩ := List.mem_map.1 hkv
    simp only [ne_eq]
    intro h
    exact hne p hp1 (String.toList_inj.1 (by simpa using h))) h2 h3
  rw [String.toList_inj.1 this]

/-- Finding: the replacement function made from an empty dict raises KeyError for every text instead of returning it. -/
theorem c45_empty_dict_raises (text : String) : multipleReplace [] text = .error .key := rfl

/-- what is inserted is not replaced again -/
example : multipleReplace [("a", "b"), ("b", "a")] "abba" = .ok "baab" := by decide
/-- the order matters if a key is a prefix of another one -/
example : multipleReplace [("a", "1"), ("ab", "2")] "ab" = .ok "1b" ∧ multipleReplace [("ab", "2"), ("a", "1")] "ab" = .ok "2" := by decide

end Dg
