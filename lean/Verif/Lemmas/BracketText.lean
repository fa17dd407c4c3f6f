import Verif.Spec.BracketText
import Verif.Lemmas.DisTokens

namespace Dg

theorem blankChar_iff (c : Char) : c ∈ [' ', '\t', '\n', '\x0b', '\x0c', '\r'] ↔ isReSpace c = true := by
  constructor
  · intro h
    exact (show Blank [c] from fun x hx => by simp at hx; subst hx; exact h).re (by simp)
  · intro h
    unfold isReSpace at h
    simp only [decide_eq_true_eq] at h
    have : c = Char.ofNat c.toNat := (Char.ofNat_toNat c).symm
    have hn : c.toNat = 9 ∨ c.toNat = 10 ∨ c.toNat = 11 ∨ c.toNat = 12 ∨ c.toNat = 13 ∨ c.toNat = 32 := by omega
    rcases hn with e | e | e | e | e | e <;> rw [e] at this <;> subst this <;> decide

theorem plainText_word {w : List Char} (h : PlainText w) : ∀ c ∈ w, isReWord c = true := by
  intro c hc
  obtain ⟨h1, h2, h3⟩ := h c hc
  rw [blankChar_iff] at h1
  unfold isReWord
  simp [h1, h2, h3]

theorem plainText_of {w : List Char} (h : ∀ c ∈ w, isReWord c = true) : PlainText w := by
  intro c hc
  have := h c hc
  unfold isReWord at this
  simp only [Bool.and_eq_true, Bool.not_eq_true', decide_eq_true_eq, ne_eq] at this
  refine ⟨?_, this.1.2, this.2⟩
  rw [blankChar_iff, this.1.1]
  simp

theorem blank_of {s : List Char} (h : ∀ c ∈ s, isReSpace c = true) : Blank s := fun c hc => (blankChar_iff c).2 (h c hc)

theorem Blank.cons {c : Char} {s : List Char} (hc : isReSpace c = true) (h : Blank s) : Blank (c :: s) := by
  intro x hx
  rcases List.mem_cons.1 hx with rfl | hx
  · exact (blankChar_iff _).2 hc
  · exact h x hx

theorem btokens_dropBlanks (s : List Char) : bracketTokens (s.dropWhile isReSpace) = bracketTokens s := by
  induction s with
  | nil => rfl
  | cons c s ih =>
    rw [List.dropWhile_cons]
    split
    · rename_i h; rw [ih, btokens_blank h]
    · rfl

theorem btokens_plain {w : List Char} (hne : w ≠ []) (h : PlainText w) {rest : List Char} (hr : Follows rest) : bracketTokens (w ++ rest) = .word w :: bracketTokens rest := by
  cases w with
  | nil => exact absurd rfl hne
  | cons c w =>
    have hw := plainText_word h
    obtain ⟨h1, h2, h3⟩ := h c (.head _)
    rw [blankChar_iff] at h1
    have := takeWhile_stop (fun x hx => hw x (.tail _ hx)) (follows_not_word hr) (a := w)
    rw [List.cons_append, bracketTokens, if_neg h2, if_neg h3, if_neg h1, this.1, this.2]

/-- what a label looks like after its leading white space -/
theorem dropUni {u l : List Char} (hu : ∀ c ∈ u, isUniSpace c = true) (hl : ∀ c, l.head? = some c → isUniSpace c = false) : (u ++ l).dropWhile isUniSpace = l :=
  (takeWhile_stop hu hl).2

theorem btokens_label {pre u l : List Char} (hp : Blank pre) (hw : PlainText (u ++ l)) (hu : ∀ c ∈ u, isUniSpace c = true) (hl : ∀ c, l.head? = some c → isUniSpace c = false)
    {rest : List Char} (hr : Follows rest) (he : u ++ l = [] → ∀ c, (rest.dropWhile isReSpace).head? = some c → isReWord c = false) :
    bracketTokens ('(' :: (pre ++ ((u ++ l) ++ rest))) = .openB l :: bracketTokens rest := by
  by_cases hne : u ++ l = []
  · have hl0 : l = [] := (List.append_eq_nil_iff.1 hne).2
    rw [hne, bracketTokens, if_pos rfl, List.nil_append, List.dropWhile_append_of_pos (fun _ hx => hp.re hx)]
    have h2 := takeWhile_stop (p := isReWord) (a := []) (b := rest.dropWhile isReSpace) (by simp) (he hne)
    rw [List.nil_append] at h2
    rw [h2.1, h2.2, btokens_dropBlanks, hl0]
    rfl
  · have h1 : (pre ++ ((u ++ l) ++ rest)).dropWhile isReSpace = (u ++ l) ++ rest := by
      refine (takeWhile_stop (fun _ hx => hp.re hx) ?_).2
      intro c hc
      cases hul : u ++ l with
      | nil => exact absurd hul hne
      | cons x xs =>
        rw [hul] at hc
        cases hc
        have := (hw c (by rw [hul]; exact .head _)).1
        rw [blankChar_iff] at this
        simpa using this
    have h2 := takeWhile_stop (plainText_word hw) (follows_not_word hr)
    rw [bracketTokens, if_pos rfl, h1, h2.1, h2.2, dropUni hu hl]

theorem dropWhile_blanks_of {sep r : List Char} (h : Blank sep) : (sep ++ r).dropWhile isReSpace = r.dropWhile isReSpace :=
  List.dropWhile_append_of_pos (fun _ hx => h.re hx)

theorem bracketText_head {t : PTree} {s : List Char} (h : BracketText t s) : ∃ r, s = '(' :: r := by
  cases h; exact ⟨_, rfl⟩

theorem bracketParts_follows {ks : List PTree} {s : List Char} (h : BracketParts true ks s) (rest : List Char) : Follows (s ++ ')' :: rest) := by
  cases h with
  | nil hb => exact follows_blank' hb (follows_close _)
  | leaf h1 h2 h3 h4 h5 => rw [List.append_assoc]; exact follows_blank (h2 rfl) h1
  | node h1 h2 h3 =>
    obtain ⟨r, rfl⟩ := bracketText_head h2
    rw [List.append_assoc]
    exact follows_blank' h1 (follows_cons (.inr (.inl rfl)))

theorem bracketParts_noLeaf {b : Bool} {ks : List PTree} {s : List Char} (h : BracketParts b ks s) (hk : NoLeafFirst ks) (rest : List Char) :
    ∀ c, ((s ++ ')' :: rest).dropWhile isReSpace).head? = some c → isReWord c = false := by
  intro c hc
  cases h with
  | nil hb => rw [dropWhile_blanks_of hb] at hc; have : c = ')' := by simpa [List.dropWhile_cons, isReSpace] using hc.symm
              subst this; decide
  | leaf => exact absurd hk id
  | node h1 h2 h3 =>
    obtain ⟨r, rfl⟩ := bracketText_head h2
    rw [List.append_assoc, dropWhile_blanks_of h1] at hc
    have : c = '(' := by simpa [List.dropWhile_cons, isReSpace] using hc.symm
    subst this; decide

mutual
theorem btokens_bracketText : ∀ {t : PTree} {s : List Char}, BracketText t s → ∀ rest, bracketTokens (s ++ rest) = t.btoks ++ bracketTokens rest
  | _, _, .node (l := l) (u := u) (pre := pre) (body := body) (ks := ks) h1 h2 h3 h4 h5 h6 => fun rest => by
    have e := btokens_label h1 h2 h3 h4 (bracketParts_follows h6 rest) (fun h => bracketParts_noLeaf h6 (h5 h) rest)
    simp only [List.cons_append, List.append_assoc, List.nil_append] at e ⊢
    rw [e, btokens_bracketParts h6 rest, PTree.btoks]
    simp
theorem btokens_bracketParts : ∀ {b : Bool} {ks : List PTree} {s : List Char}, BracketParts b ks s → ∀ rest, bracketTokens (s ++ ')' :: rest) = PTree.btoksAll ks ++ .closeB :: bracketTokens rest
  | _, _, _, .nil h => fun rest => by rw [btokens_blanks h, btokens_close]; rfl
  | _, _, _, .leaf h1 h2 h3 h4 h5 => fun rest => by
    rw [List.append_assoc, List.append_assoc, btokens_blanks h1, btokens_plain h3 h4 (bracketParts_follows h5 rest), btokens_bracketParts h5 rest]
    rfl
  | _, _, _, .node h1 h2 h3 => fun rest => by
    rw [List.append_assoc, List.append_assoc, btokens_blanks h1, btokens_bracketText h2 _, btokens_bracketParts h3 rest, PTree.btoksAll, List.append_assoc]
end

mutual
theorem bracketText_real : ∀ {t : PTree} {s : List Char}, BracketText t s → t.Real
  | _, _, .node _ _ _ _ _ h => .node (bracketParts_real h)
theorem bracketParts_real : ∀ {b : Bool} {ks : List PTree} {s : List Char}, BracketParts b ks s → ∀ k ∈ ks, k.Real
  | _, _, _, .nil _ => fun _ h => absurd h List.not_mem_nil
  | _, _, _, .leaf _ _ _ _ h => List.forall_mem_cons.2 ⟨.leaf, bracketParts_real h⟩
  | _, _, _, .node _ h1 h2 => List.forall_mem_cons.2 ⟨bracketText_real h1, bracketParts_real h2⟩
end

/-! ### the other direction: every text with the tokens of a tree is a layout of the tree -/

theorem btokens_nil {s : List Char} (h : bracketTokens s = []) : Blank s := by
  induction s with
  | nil => intro c hc; cases hc
  | cons c s ih =>
    rw [bracketTokens] at h
    split at h
    · cases h
    · split at h
      · cases h
      · split at h
        · rename_i hc; exact .cons hc (ih h)
        · cases h

theorem btokens_inv_close {s : List Char} {ts : List BTok} (h : bracketTokens s = .closeB :: ts) : ∃ sep r, s = sep ++ ')' :: r ∧ Blank sep ∧ bracketTokens r = ts := by
  induction s with
  | nil => simp [bracketTokens] at h
  | cons c s ih =>
    rw [bracketTokens] at h
    split at h
    · cases h
    · split at h
      · rename_i hc; subst hc; simp at h; exact ⟨[], s, rfl, (fun _ hx => by cases hx), h⟩
      · split at h
        · rename_i hc
          obtain ⟨sep, r, h1, h2, h3⟩ := ih h
          exact ⟨c :: sep, r, by rw [h1]; rfl, .cons hc h2, h3⟩
        · cases h

theorem follows_dropWord (s : List Char) : Follows (s.dropWhile isReWord) := by
  intro c hc
  have := List.head?_dropWhile_not isReWord s
  rw [hc] at this
  simp only at this
  unfold isReWord at this
  by_cases h1 : isReSpace c = true
  · exact .inl h1
  · by_cases h2 : c = '('
    · exact .inr (.inl h2)
    · by_cases h3 : c = ')'
      · exact .inr (.inr h3)
      · simp [h1, h2, h3] at this

theorem takeWhile_all (p : Char → Bool) (s : List Char) : ∀ c ∈ s.takeWhile p, p c = true := by
  intro c hc
  induction s with
  | nil => cases hc
  | cons x s ih =>
    rw [List.takeWhile_cons] at hc
    split at hc
    · rename_i hx
      rcases List.mem_cons.1 hc with rfl | hc
      · exact hx
      · exact ih hc
    · cases hc

theorem btokens_inv_word {s w : List Char} {ts : List BTok} (h : bracketTokens s = .word w :: ts) :
    ∃ sep r, s = sep ++ (w ++ r) ∧ Blank sep ∧ w ≠ [] ∧ PlainText w ∧ Follows r ∧ bracketTokens r = ts := by
  induction s with
  | nil => simp [bracketTokens] at h
  | cons c s ih =>
    rw [bracketTokens] at h
    split at h
    · cases h
    · rename_i h1
      split at h
      · cases h
      · rename_i h2
        split at h
        · rename_i hc
          obtain ⟨sep, r, e1, e2, e3⟩ := ih h
          exact ⟨c :: sep, r, by rw [e1]; rfl, .cons hc e2, e3⟩
        · rename_i h3
          simp only [List.cons.injEq, BTok.word.injEq] at h
          obtain ⟨rfl, h⟩ := h
          refine ⟨[], s.dropWhile isReWord, ?_, fun _ hx => (by cases hx), by simp, ?_, follows_dropWord s, h⟩
          · simp [List.takeWhile_append_dropWhile]
          · apply plainText_of
            intro x hx
            rcases List.mem_cons.1 hx with rfl | hx
            · unfold isReWord; simp [h1, h2, h3]
            · exact takeWhile_all _ _ x hx

theorem btokens_inv_open {s l : List Char} {ts : List BTok} (h : bracketTokens s = .openB l :: ts) :
    ∃ sep pre u r, s = sep ++ '(' :: (pre ++ ((u ++ l) ++ r)) ∧ Blank sep ∧ Blank pre ∧ PlainText (u ++ l) ∧ (∀ c ∈ u, isUniSpace c = true) ∧
      (∀ c, l.head? = some c → isUniSpace c = false) ∧ Follows r ∧ (u ++ l = [] → ∀ c, r.head? = some c → isReSpace c = false) ∧ bracketTokens r = ts := by
  induction s with
  | nil => simp [bracketTokens] at h
  | cons c s ih =>
    rw [bracketTokens] at h
    split at h
    · rename_i hc
      subst hc
      simp only [List.cons.injEq, BTok.openB.injEq] at h
      obtain ⟨h1, h2⟩ := h
      refine ⟨[], s.takeWhile isReSpace, ((s.dropWhile isReSpace).takeWhile isReWord).takeWhile isUniSpace, (s.dropWhile isReSpace).dropWhile isReWord, ?_, fun _ hx => (by cases hx), ?_, ?_, ?_, ?_, ?_, ?_, h2⟩
      · rw [← h1]; simp [List.takeWhile_append_dropWhile]
      · exact blank_of (takeWhile_all _ _)
      · rw [← h1, List.takeWhile_append_dropWhile]; exact plainText_of (takeWhile_all _ _)
      · exact takeWhile_all _ _
      · intro c hc
        have := List.head?_dropWhile_not isUniSpace ((s.dropWhile isReSpace).takeWhile isReWord)
        rw [h1, hc] at this
        simpa using this
      · exact follows_dropWord _
      · rw [← h1, List.takeWhile_append_dropWhile]
        intro he c hc
        have e := List.takeWhile_append_dropWhile (p := isReWord) (l := s.dropWhile isReSpace)
        rw [he, List.nil_append] at e
        rw [e] at hc
        have := List.head?_dropWhile_not isReSpace s
        rw [hc] at this
        simpa using this
    · split at h
      · cases h
      · split at h
        · rename_i hc
          obtain ⟨sep, pre, u, r, e1, e2, e3⟩ := ih h
          exact ⟨c :: sep, pre, u, r, by rw [e1]; rfl, .cons hc e2, e3⟩
        · cases h

mutual
theorem bracketText_of : ∀ (l : List Char) (ks : List PTree), (∀ k ∈ ks, k.Real) → ∀ (s : List Char) (rest : List BTok), bracketTokens s = (PTree.node l ks).btoks ++ rest →
    ∃ sep s1 s2, s = sep ++ (s1 ++ s2) ∧ Blank sep ∧ BracketText (.node l ks) s1 ∧ bracketTokens s2 = rest
  | l, ks, hk, s, rest, h => by
    rw [PTree.btoks, List.cons_append, List.append_assoc] at h
    obtain ⟨sep, pre, u, r, e1, e2, e3, e4, e5, e6, e7, e8, e9⟩ := btokens_inv_open h
    obtain ⟨s1, s2, f1, f2, f3⟩ := bracketParts_of ks hk true r rest (fun _ => e7) e9
    refine ⟨sep, '(' :: (pre ++ ((u ++ l) ++ (s1 ++ [')']))), s2, ?_, e2, .node e3 e4 e5 e6 ?_ f2, f3⟩
    · rw [e1, f1]; simp
    · intro he
      cases ks with
      | nil => trivial
      | cons k ks =>
        cases k with
        | leaf w =>
          exfalso
          have h8 := e8 he
          cases r with
          | nil => simp [bracketTokens, PTree.btoksAll, PTree.btoks] at e9
          | cons c r =>
            have hc := h8 c rfl
            rcases e7 c rfl with q | q | q
            · rw [hc] at q; cases q
            · subst q
              rw [bracketTokens, if_pos rfl] at e9
              simp [PTree.btoksAll, PTree.btoks] at e9
            · subst q
              rw [btokens_close] at e9
              simp [PTree.btoksAll, PTree.btoks] at e9
        | none => trivial
        | node _ _ => trivial
theorem bracketParts_of : ∀ (ks : List PTree), (∀ k ∈ ks, k.Real) → ∀ (b : Bool) (s : List Char) (rest : List BTok), (b = true → Follows s) →
    bracketTokens s = PTree.btoksAll ks ++ ([.closeB] ++ rest) → ∃ s1 s2, s = s1 ++ ')' :: s2 ∧ BracketParts b ks s1 ∧ bracketTokens s2 = rest
  | [], _, b, s, rest, hb, h => by
    obtain ⟨sep, r, e1, e2, e3⟩ := btokens_inv_close h
    exact ⟨sep, r, e1, .nil e2, e3⟩
  | .none :: ks, hk, b, s, rest, hb, h => by
    have := hk .none (.head _)
    cases this
  | .leaf w :: ks, hk, b, s, rest, hb, h => by
    obtain ⟨sep, r, e1, e2, e3, e4, e5, e6⟩ := btokens_inv_word (show bracketTokens s = .word w :: (PTree.btoksAll ks ++ ([.closeB] ++ rest)) from h)
    obtain ⟨s1, s2, f1, f2, f3⟩ := bracketParts_of ks (fun k hx => hk k (.tail _ hx)) true r rest (fun _ => e5) e6
    refine ⟨sep ++ (w ++ s1), s2, ?_, .leaf e2 ?_ e3 e4 f2, f3⟩
    · rw [e1, f1]; simp
    · rintro hbt rfl
      have hf := hb hbt
      rw [e1] at hf
      cases w with
      | nil => exact e3 rfl
      | cons c w =>
        have := plainText_word e4 c (.head _)
        rw [follows_not_word hf c rfl] at this
        cases this
  | .node l ks' :: ks, hk, b, s, rest, hb, h => by
    have hk1 := hk _ (.head _)
    have hk' : ∀ k ∈ ks', k.Real := by cases hk1; assumption
    rw [PTree.btoksAll, List.append_assoc] at h
    obtain ⟨sep, s1, s2, e1, e2, e3, e4⟩ := bracketText_of l ks' hk' s _ h
    obtain ⟨s3, s4, f1, f2, f3⟩ := bracketParts_of ks (fun k hx => hk k (.tail _ hx)) false s2 rest (fun h => by cases h) e4
    exact ⟨sep ++ (s1 ++ s3), s4, by rw [e1, f1]; simp, .node e2 e3 f2, f3⟩
end

/-- nltk reads exactly the bracketed texts -/
theorem treeFromString_iff (s : List Char) (t : PTree) : treeFromString s = .ok t ↔ BracketFile t s := by
  unfold treeFromString
  constructor
  · intro h
    have h1 := bparse_sound _ [] [] t h (by simp)
    obtain ⟨h2, l, ks, rfl⟩ := bparse_real _ [] [] t h (by simp) (by simp)
    have hk : ∀ k ∈ ks, k.Real := by cases h2; assumption
    simp only [PTree.btoksAll, stackToks, List.nil_append] at h1
    obtain ⟨sep, s1, s2, e1, e2, e3, e4⟩ := bracketText_of l ks hk s [] (by rw [h1, List.append_nil])
    exact ⟨sep, s1, s2, e1, e2, btokens_nil e4, e3⟩
  · rintro ⟨pre, body, post, rfl, h1, h2, h3⟩
    rw [btokens_blanks h1, btokens_bracketText h3]
    have : bracketTokens post = [] := by have := btokens_blanks h2 []; rw [List.append_nil] at this; rw [this]; rw [bracketTokens]
    rw [this, List.append_nil]
    have hr := bracketText_real h3
    cases h3
    exact bparse_complete hr

end Dg
