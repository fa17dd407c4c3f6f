import Verif.Spec.Freqt
import Verif.Lemmas.Forall2
import Mathlib.Data.List.Nodup

/-! Ordered trees and their bracket notation. -/

namespace Dg
namespace Rose
variable {α : Type}

theorem ind {P : Rose α → Prop} (h : ∀ a kids, (∀ k ∈ kids, P k) → P (.node a kids)) (t : Rose α) : P t :=
  Rose.rec (motive_1 := P) (motive_2 := fun l => ∀ k ∈ l, P k) (fun a kids ih => h a kids ih) (by simp)
    (fun t ts ht hts k hk => by
      rcases List.mem_cons.1 hk with rfl | hk
      · exact ht
      · exact hts k hk) t

theorem labelsAll_eq (ts : List (Rose α)) : labelsAll ts = ts.flatMap labels := by
  induction ts with
  | nil => rfl
  | cons t ts ih => rw [labelsAll, ih]; rfl

theorem mem_labels {t : Rose α} {x : α} : x ∈ t.labels ↔ ∃ kids, Sub (.node x kids) t := by
  induction t using ind with
  | h a kids ih =>
    rw [labels, labelsAll_eq, List.mem_cons, List.mem_flatMap]
    constructor
    · rintro (rfl | ⟨k, hk, hx⟩)
      · exact ⟨kids, .refl _⟩
      · obtain ⟨ks, hs⟩ := (ih k hk).1 hx; exact ⟨ks, .kid hk hs⟩
    · rintro ⟨ks, hs⟩
      cases hs with
      | refl => exact .inl rfl
      | kid hk hs => exact .inr ⟨_, hk, (ih _ hk).2 ⟨ks, hs⟩⟩

theorem root_mem_labels (t : Rose α) : t.root ∈ t.labels := by
  cases t; rw [labels]; simp [root]

theorem Sub.trans {a b c : Rose α} (h1 : Sub a b) (h2 : Sub b c) : Sub a c := by
  induction h2 with
  | refl => exact h1
  | kid hk _ ih => exact .kid hk ih

/-- the trees whose kids are given by `R` exactly once -/
theorem labels_nodup {R : α → α → Prop} (hac : ∀ x, ¬ Relation.TransGen R x x) (hone : ∀ a b c, R a c → R b c → a = b) (t : Rose α) :
    (∀ n kids, Sub (.node n kids) t → (kids.map root).Nodup ∧ ∀ k ∈ kids, R n k.root) →
    t.labels.Nodup ∧ ∀ x ∈ t.labels, Relation.ReflTransGen R t.root x := by
  induction t using ind with
  | h a kids ih =>
    intro h
    have hk := fun k (hk : k ∈ kids) => ih k hk (fun n ks hs => h n ks (.kid hk hs))
    obtain ⟨hnd, hR⟩ := h a kids (.refl _)
    have hreach : ∀ x ∈ labels (.node a kids), Relation.ReflTransGen R a x := by
      intro x hx
      rw [labels, labelsAll_eq, List.mem_cons, List.mem_flatMap] at hx
      rcases hx with rfl | ⟨k, hk', hx⟩
      · exact .refl
      · exact Relation.ReflTransGen.head (hR k hk') ((hk k hk').2 x hx)
    refine ⟨?_, hreach⟩
    rw [labels, labelsAll_eq, List.nodup_cons]
    refine ⟨?_, ?_⟩
    · intro hx
      obtain ⟨k, hk', hx⟩ := List.mem_flatMap.1 hx
      exact hac a (Relation.TransGen.head' (hR k hk') ((hk k hk').2 a hx))
    · rw [List.nodup_flatMap]
      refine ⟨fun k hk' => (hk k hk').1, ?_⟩
      have hp : kids.Pairwise (fun k k' => k.root ≠ k'.root) := List.pairwise_map.1 hnd
      refine (List.Pairwise.and_mem.1 hp).imp ?_
      rintro k k' ⟨hk1, hk2, hne⟩ x hx1 hx2
      have r1 := (hk k hk1).2 x hx1
      have r2 := (hk k' hk2).2 x hx2
      have comp : ∀ {u v x : α}, Relation.ReflTransGen R u x → Relation.ReflTransGen R v x → Relation.ReflTransGen R u v ∨ Relation.ReflTransGen R v u := by
        intro u v x hu
        induction hu with
        | refl => intro hv; exact .inr hv
        | tail h1 h2 ih' =>
          intro hv
          rcases Relation.ReflTransGen.cases_tail hv with e | ⟨w, hw, hwx⟩
          · exact .inl (e ▸ h1.tail h2)
          · obtain rfl := hone _ _ _ hwx h2
            exact ih' hw
      have bad : ∀ {u v : α}, R a u → R a v → u ≠ v → ¬ Relation.ReflTransGen R u v := by
        intro u v hu hv hne' huv
        rcases Relation.ReflTransGen.cases_tail huv with e | ⟨w, hw, hwv⟩
        · exact hne' e.symm
        · obtain rfl := hone _ _ _ hwv hv
          exact hac w (Relation.TransGen.head' hu hw)
      rcases comp r1 r2 with h' | h'
      · exact bad (hR k hk1) (hR k' hk2) hne h'
      · exact bad (hR k' hk2) (hR k hk1) (Ne.symm hne) h'

/-! ### bracket notation -/

/-- the length of the part of `s` before its first bracket -/
theorem split_label {l l' s s' : List Char} (h : BracketFree l) (h' : BracketFree l') (hs : ∃ c r, s = c :: r ∧ (c = '(' ∨ c = ')'))
    (hs' : ∃ c r, s' = c :: r ∧ (c = '(' ∨ c = ')')) (e : l ++ s = l' ++ s') : l = l' ∧ s = s' := by
  induction l generalizing l' with
  | nil =>
    cases l' with
    | nil => exact ⟨rfl, e⟩
    | cons c l' =>
      obtain ⟨d, r, rfl, hd⟩ := hs
      simp only [List.nil_append, List.cons_append, List.cons.injEq] at e
      obtain ⟨rfl, _⟩ := e
      rcases hd with rfl | rfl
      · exact absurd List.mem_cons_self h'.1
      · exact absurd List.mem_cons_self h'.2
  | cons c l ih =>
    cases l' with
    | nil =>
      obtain ⟨d, r, rfl, hd⟩ := hs'
      simp only [List.nil_append, List.cons_append, List.cons.injEq] at e
      obtain ⟨rfl, _⟩ := e
      rcases hd with rfl | rfl
      · exact absurd List.mem_cons_self h.1
      · exact absurd List.mem_cons_self h.2
    | cons c' l' =>
      simp only [List.cons_append, List.cons.injEq] at e
      obtain ⟨rfl, e⟩ := e
      obtain ⟨rfl, hs⟩ := ih (l' := l') ⟨fun h'' => h.1 (List.mem_cons_of_mem _ h''), fun h'' => h.2 (List.mem_cons_of_mem _ h'')⟩
        ⟨fun h'' => h'.1 (List.mem_cons_of_mem _ h''), fun h'' => h'.2 (List.mem_cons_of_mem _ h'')⟩ e
      exact ⟨rfl, hs⟩

theorem bracketsAll_head (ts : List (Rose (List Char))) (s : List Char) : ∃ c r, bracketsAll ts ++ ')' :: s = c :: r ∧ (c = '(' ∨ c = ')') := by
  cases ts with
  | nil => exact ⟨')', s, rfl, .inr rfl⟩
  | cons t ts =>
    cases t with
    | node l kids => rw [bracketsAll, brackets]; exact ⟨'(', _, rfl, .inl rfl⟩

/-- the notation of a list of trees, followed by a closing bracket, determines the trees -/
theorem brackets_inj (t : Rose (List Char)) : (∀ l ∈ t.labels, BracketFree l) →
    ∀ (t' : Rose (List Char)), (∀ l ∈ t'.labels, BracketFree l) → ∀ s s', t.brackets ++ s = t'.brackets ++ s' → t = t' ∧ s = s' := by
  induction t using ind with
  | h l kids ih =>
    intro hl t' hl' s s' e
    cases t' with
    | node l' kids' =>
      rw [labels, labelsAll_eq] at hl hl'
      rw [brackets, brackets] at e
      simp only [List.cons_append, List.append_assoc, List.cons.injEq, true_and, List.nil_append] at e
      obtain ⟨rfl, e2⟩ := split_label (hl l (by simp)) (hl' l' (by simp)) (bracketsAll_head _ _) (bracketsAll_head _ _) e
      have key : ∀ (ks : List (Rose (List Char))), (∀ k ∈ ks, k ∈ kids) → ∀ ks' : List (Rose (List Char)), (∀ k ∈ ks', ∀ x ∈ k.labels, BracketFree x) →
          bracketsAll ks ++ ')' :: s = bracketsAll ks' ++ ')' :: s' → ks = ks' ∧ s = s' := by
        intro ks
        induction ks with
        | nil =>
          intro _ ks' _ e
          cases ks' with
          | nil => simp [bracketsAll] at e; exact ⟨rfl, e⟩
          | cons k' ks' => cases k'; simp [bracketsAll, brackets] at e
        | cons k ks ih2 =>
          intro hin ks' hks' e
          cases ks' with
          | nil => cases k; simp [bracketsAll, brackets] at e
          | cons k' ks' =>
            rw [bracketsAll, bracketsAll, List.append_assoc, List.append_assoc] at e
            have hk : ∀ x ∈ k.labels, BracketFree x := fun x hx => hl x (List.mem_cons_of_mem _ (List.mem_flatMap.2 ⟨k, hin k (by simp), hx⟩))
            obtain ⟨rfl, e3⟩ := ih k (hin k (by simp)) hk k' (hks' k' (by simp)) _ _ e
            obtain ⟨rfl, e4⟩ := ih2 (fun k hk => hin k (List.mem_cons_of_mem _ hk)) ks' (fun k hk => hks' k (List.mem_cons_of_mem _ hk)) e3
            exact ⟨rfl, e4⟩
      obtain ⟨rfl, e5⟩ := key kids (fun k hk => hk) kids' (fun k hk x hx => hl' x (List.mem_cons_of_mem _ (List.mem_flatMap.2 ⟨k, hk, hx⟩))) e2
      exact ⟨rfl, e5⟩

theorem Balanced.append {s t : List Char} (hs : Balanced s) (ht : Balanced t) : Balanced (s ++ t) := by
  induction hs with
  | nil => exact ht
  | plain h1 h2 _ ih => exact .plain h1 h2 ih
  | wrap h1 _ _ ih2 =>
    rw [List.append_assoc, List.cons_append]
    exact .wrap h1 ih2

theorem balanced_of_free {s : List Char} (h : BracketFree s) : Balanced s := by
  induction s with
  | nil => exact .nil
  | cons c s ih =>
    refine .plain (fun e => h.1 (e ▸ List.mem_cons_self)) (fun e => h.2 (e ▸ List.mem_cons_self)) (ih ⟨fun h' => h.1 (List.mem_cons_of_mem _ h'), fun h' => h.2 (List.mem_cons_of_mem _ h')⟩)

theorem brackets_balanced (t : Rose (List Char)) : (∀ l ∈ t.labels, BracketFree l) → Balanced t.brackets := by
  induction t using ind with
  | h l kids ih =>
    intro hl
    rw [labels, labelsAll_eq] at hl
    have key : ∀ ks : List (Rose (List Char)), (∀ k ∈ ks, k ∈ kids) → Balanced (bracketsAll ks) := by
      intro ks
      induction ks with
      | nil => intro _; rw [bracketsAll]; exact .nil
      | cons k ks ih2 =>
        intro hin
        rw [bracketsAll]
        refine Balanced.append (ih k (hin k (by simp)) (fun x hx => ?_)) (ih2 (fun k hk => hin k (List.mem_cons_of_mem _ hk)))
        exact hl x (List.mem_cons_of_mem _ (List.mem_flatMap.2 ⟨k, hin k (by simp), hx⟩))
    rw [brackets]
    exact .wrap (Balanced.append (balanced_of_free (hl l (by simp))) (key kids (fun k hk => hk))) .nil

end Rose

theorem withoutBrackets_free (s : List Char) : BracketFree (withoutBrackets s) := by
  unfold BracketFree withoutBrackets
  simp only [List.mem_flatMap, not_exists, not_and]
  constructor <;> intro c _ <;> split
  · decide
  · split
    · decide
    · simpa [eq_comm] using ‹¬ c = '('›
  · decide
  · split
    · decide
    · simpa [eq_comm] using ‹¬ c = ')'›

end Dg
