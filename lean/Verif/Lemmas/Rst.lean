import Verif.Model.Rst
import Verif.Spec.RstParsers
import Verif.Lemmas.Text

/-! Labels and lines of RST parser output. -/

namespace Dg

theorem except_bind_ok {ε α β : Type} (a : α) (f : α → Except ε β) : (Except.ok a >>= f) = f a := rfl

theorem Rst.ind {P : Rst → Prop} (h1 : ∀ s, P (.edu s)) (h2 : ∀ a kids, (∀ k ∈ kids, P k.2) → P (.rel a kids)) (t : Rst) : P t :=
  Rst.rec (motive_1 := P) (motive_2 := fun l => ∀ k ∈ l, P k.2) (motive_3 := fun k => P k.2) h1 (fun a kids ih => h2 a kids ih) (by simp)
    (fun t ts ht hts k hk => by
      rcases List.mem_cons.1 hk with rfl | hk
      · exact ht
      · exact hts k hk) (fun _ _ h => h) t

theorem PTree.ind {P : PTree → Prop} (h1 : ∀ s, P (.leaf s)) (h0 : P .none) (h2 : ∀ a kids, (∀ k ∈ kids, P k) → P (.node a kids)) (t : PTree) : P t :=
  PTree.rec (motive_1 := P) (motive_2 := fun l => ∀ k ∈ l, P k) h1 h0 (fun a kids ih => h2 a kids ih) (by simp)
    (fun t ts ht hts k hk => by
      rcases List.mem_cons.1 hk with rfl | hk
      · exact ht
      · exact hts k hk) t

theorem Rst.edusAll_eq (ts : List (Nuc × Rst)) : edusAll ts = ts.flatMap (fun k => edus k.2) := by
  induction ts with
  | nil => rfl
  | cons t ts ih => obtain ⟨n, t⟩ := t; rw [edusAll, ih]; rfl

theorem Rst.treeAll_eq (ts : List (Nuc × Rst)) : treeAll ts = ts.map (fun k => .node k.1.label [tree k.2]) := by
  induction ts with
  | nil => rfl
  | cons t ts ih => obtain ⟨n, t⟩ := t; rw [treeAll, ih]; rfl

theorem PTree.leavesAll_eq (ts : List PTree) : leavesAll ts = ts.flatMap leaves := by
  induction ts with
  | nil => rfl
  | cons t ts ih => rw [leavesAll, ih]; rfl

/-- the leaves of the tree of a structure are its EDUs -/
theorem Rst.leaves_tree (t : Rst) : t.tree.leaves = t.edus := by
  induction t using ind with
  | h1 s => rfl
  | h2 a kids ih =>
    rw [tree, PTree.leaves, PTree.leavesAll_eq, edus, treeAll_eq, edusAll_eq, List.flatMap_map]
    induction kids with
    | nil => rfl
    | cons k ks ih2 =>
      rw [List.flatMap_cons, List.flatMap_cons, ih2 (fun k hk => ih k (List.mem_cons_of_mem _ hk))]
      simp [PTree.leaves, PTree.leavesAll, ih k (by simp)]

theorem Rst.leaves_docTree (t : Rst) : t.docTree.leaves = t.edus := by
  cases t with
  | edu s => rfl
  | rel a kids => exact leaves_tree _

theorem nucOf_eq {c : Char} {n : Nuc} : nucOf c = some n ↔ c = n.char := by
  unfold nucOf
  constructor
  · intro h
    split at h
    · cases h; assumption
    · split at h
      · cases h; assumption
      · cases h
  · rintro rfl
    cases n <;> rfl

theorem dropLast_of_getLast? {s : List Char} {c : Char} (h : s.getLast? = some c) : s = s.dropLast ++ [c] := by
  obtain ⟨ys, rfl⟩ := List.getLast?_eq_some_iff.1 h
  simp

theorem dotStarEnd_eq {s name : List Char} : dotStarEnd s = some name ↔ '\n' ∉ name ∧ ∃ nl, OptNewline nl ∧ s = name ++ nl := by
  unfold dotStarEnd
  constructor
  · intro h
    split at h
    · split at h
      · rename_i h2
        cases h
        exact ⟨h2.2, ['\n'], .inr rfl, dropLast_of_getLast? h2.1⟩
      · cases h
    · cases h; exact ⟨by assumption, [], .inl rfl, by simp⟩
  · rintro ⟨hn, nl, rfl | rfl, rfl⟩
    · simp [hn]
    · simp [hn]

theorem stagedpRel_eq {label name : List Char} {x y : Nuc} :
    stagedpRel label = some (x, y, name) ↔ '\n' ∉ name ∧ ∃ nl, OptNewline nl ∧ label = [x.char, y.char, '-'] ++ name ++ nl := by
  unfold stagedpRel
  constructor
  · intro h
    split at h
    · split at h
      · rename_i h1 h2 h3
        cases h
        obtain ⟨hn, nl, hnl, rfl⟩ := dotStarEnd_eq.1 h3
        rw [nucOf_eq.1 h1, nucOf_eq.1 h2]
        exact ⟨hn, nl, hnl, by simp⟩
      · cases h
    · cases h
  · rintro ⟨hn, nl, hnl, rfl⟩
    simp [nucOf_eq.2 rfl, dotStarEnd_eq.2 ⟨hn, nl, hnl, rfl⟩]

theorem hildaRel_eq {label name : List Char} {x y : Nuc} :
    hildaRel label = some (name, x, y) ↔
      '\n' ∉ name ∧ ∃ nl, OptNewline nl ∧ label = name ++ ['[', x.char, ']', '[', y.char, ']'] ++ nl := by
  unfold hildaRel
  constructor
  · intro h
    have key : ∀ s : List Char, (match s.reverse with
        | c1 :: y :: c2 :: c3 :: x :: c4 :: r =>
          if c1 = ']' ∧ c2 = '[' ∧ c3 = ']' ∧ c4 = '[' ∧ '\n' ∉ r then
            match nucOf x, nucOf y with
            | some x, some y => some (r.reverse, x, y)
            | _, _ => .none
          else .none
        | _ => none) = some (name, x, y) → '\n' ∉ name ∧ s = name ++ ['[', x.char, ']', '[', y.char, ']'] := by
      intro s hs
      split at hs
      · rename_i hrev
        split at hs
        · rename_i hc
          obtain ⟨rfl, rfl, rfl, rfl, hr⟩ := hc
          split at hs
          · rename_i h1 h2
            cases hs
            have := congrArg List.reverse hrev
            simp at this
            rw [nucOf_eq.1 h1, nucOf_eq.1 h2] at this
            exact ⟨by simpa using hr, by simpa using this⟩
          · cases hs
        · cases hs
      · cases hs
    by_cases hl : label.getLast? = some '\n'
    · rw [if_pos hl] at h
      obtain ⟨hn, he⟩ := key _ h
      exact ⟨hn, ['\n'], .inr rfl, by rw [← he]; exact dropLast_of_getLast? hl⟩
    · rw [if_neg hl] at h
      obtain ⟨hn, he⟩ := key _ h
      exact ⟨hn, [], .inl rfl, by simp [he]⟩
  · rintro ⟨hn, nl, rfl | rfl, rfl⟩
    · simp [nucOf_eq.2 rfl, hn]
    · simp [nucOf_eq.2 rfl, hn]

theorem dropWhile_nil {α : Type} {p : α → Bool} {l : List α} : l.dropWhile p = [] ↔ ∀ x ∈ l, p x = true := by
  induction l with
  | nil => simp
  | cons a l ih =>
    rw [List.dropWhile_cons]
    by_cases h : p a = true
    · simp [h, ih]
    · simp [h]

theorem splitLinesAux_line (cur line rest : List Char) (h : ∀ c ∈ line, c ≠ '\n' ∧ c ≠ '\r') :
    splitLinesAux cur (line ++ '\n' :: rest) = (cur.reverse ++ line) :: splitLinesAux [] rest := by
  induction line generalizing cur with
  | nil => simp [splitLinesAux]
  | cons c line ih =>
    have hc := h c (by simp)
    rw [List.cons_append, splitLinesAux]
    · simp only [hc, or_self, if_false]
      rw [ih _ (fun c hc => h c (by simp [hc]))]
      simp
    · intro r he
      simp [hc.2] at he

theorem stripChars_blank {s : List Char} (h : ∀ c ∈ s, isSpaceByte c = true) : stripChars s = [] := by
  unfold stripChars
  rw [dropWhile_nil.2 h]
  rfl

theorem stripChars_ne_nil {s : List Char} {c : Char} (hc : c ∈ s) (h : isSpaceByte c = false) : stripChars s ≠ [] := by
  unfold stripChars
  intro he
  have he := List.reverse_eq_nil_iff.1 he
  rw [dropWhile_nil] at he
  have hm : c ∈ s.dropWhile isSpaceByte := by
    have := List.takeWhile_append_dropWhile (p := isSpaceByte) (l := s)
    rw [← this, List.mem_append] at hc
    rcases hc with hc | hc
    · have := List.all_eq_true.1 (List.all_takeWhile (p := isSpaceByte) (l := s)) c hc; rw [h] at this; cases this
    · exact hc
  rw [he c (List.mem_reverse.2 hm)] at h
  cases h

theorem stripChars_self {s : List Char} (h : ∀ c ∈ s, isSpaceByte c = false) : stripChars s = s := by
  have hd : ∀ l : List Char, (∀ c ∈ l, isSpaceByte c = false) → l.dropWhile isSpaceByte = l := by
    intro l hl
    cases l with
    | nil => rfl
    | cons a l => rw [List.dropWhile_cons_of_neg]; simp [hl a (by simp)]
  unfold stripChars
  rw [hd s h, hd _ (fun c hc => h c (List.mem_reverse.1 hc)), List.reverse_reverse]

theorem pyIntE_decimal (n : Nat) : pyIntE (decimal n) = .ok (n : Int) := by
  have hsp : ∀ c ∈ decimal n, isSpaceByte c = false := by
    intro c hc
    have := decimal_digits n c hc
    unfold isDigitChar at this
    simp only [decide_eq_true_eq] at this
    unfold isSpaceByte
    simp only [decide_eq_false_iff_not, not_or]
    refine ⟨?_, ?_, ?_, ?_, ?_, ?_⟩ <;> (rintro rfl; revert this; decide)
  have hd := decimal_digits n
  have hm : '-' ∉ decimal n := minus_not_mem_decimal n
  have hp : '+' ∉ decimal n := fun h => absurd (hd _ h) (by decide)
  have ha : (decimal n).all isDigitChar = true := List.all_eq_true.2 hd
  unfold pyIntE
  rw [stripChars_self hsp]
  split
  · rename_i d he; rw [he] at hm; simp at hm
  · rename_i d he; rw [he] at hp; simp at hp
  · rw [if_pos ⟨decimal_ne_nil n, ha⟩, parseDec_decimal]

end Dg
