import Verif.Lemmas.DisText

namespace Dg

theorem follows_not_word {rest : List Char} (h : Follows rest) : ∀ c, rest.head? = some c → isReWord c = false := by
  intro c hc
  unfold isReWord
  rcases h c hc with h | h | h
  · simp [h]
  · subst h; decide
  · subst h; decide

theorem takeWhile_stop {p : Char → Bool} {a b : List Char} (ha : ∀ c ∈ a, p c = true) (hb : ∀ c, b.head? = some c → p c = false) : (a ++ b).takeWhile p = a ∧ (a ++ b).dropWhile p = b := by
  constructor
  · rw [List.takeWhile_append_of_pos ha]
    cases b with
    | nil => simp
    | cons c b => rw [List.takeWhile_cons, if_neg (by rw [hb c rfl]; simp), List.append_nil]
  · rw [List.dropWhile_append_of_pos ha]
    cases b with
    | nil => rfl
    | cons c b => rw [List.dropWhile_cons, if_neg (by rw [hb c rfl]; simp)]

theorem btokens_blank {c : Char} (h : isReSpace c = true) (r : List Char) : bracketTokens (c :: r) = bracketTokens r := by
  rw [bracketTokens, if_neg, if_neg, if_pos h]
  · rintro rfl
    cases h
  · rintro rfl
    cases h

theorem btokens_blanks {s : List Char} (h : Blank s) (r : List Char) : bracketTokens (s ++ r) = bracketTokens r := by
  induction s with
  | nil => rfl
  | cons c s ih => rw [List.cons_append, btokens_blank (h.re (.head _)), ih (fun x hx => h x (.tail _ hx))]

theorem btokens_close (r : List Char) : bracketTokens (')' :: r) = .closeB :: bracketTokens r := by
  rw [bracketTokens, if_neg (by decide), if_pos rfl]

/-- characters of words -/
theorem reWord_of {c : Char} (h : isUniSpace c = false ∧ c ≠ '(' ∧ c ≠ ')') : isReWord c = true := by
  unfold isReWord
  simp [not_re h.1, h.2.1, h.2.2]

theorem btokens_word {w : List Char} (hne : w ≠ []) (h : ∀ c ∈ w, isUniSpace c = false ∧ c ≠ '(' ∧ c ≠ ')') {rest : List Char} (hr : Follows rest) :
    bracketTokens (w ++ rest) = .word w :: bracketTokens rest := by
  cases w with
  | nil => exact absurd rfl hne
  | cons c w =>
    have hc := h c (.head _)
    have := takeWhile_stop (fun x hx => reWord_of (h x (.tail _ hx))) (follows_not_word hr) (a := w)
    rw [List.cons_append, bracketTokens, if_neg hc.2.1, if_neg hc.2.2, if_neg (by rw [not_re hc.1]; simp), this.1, this.2]

theorem btokens_open {pre l : List Char} (hp : Blank pre) (hne : l ≠ []) (h : ∀ c ∈ l, isUniSpace c = false ∧ c ≠ '(' ∧ c ≠ ')') {rest : List Char} (hr : Follows rest) :
    bracketTokens ('(' :: (pre ++ (l ++ rest))) = .openB l :: bracketTokens rest := by
  have h1 : (pre ++ (l ++ rest)).dropWhile isReSpace = l ++ rest := by
    refine (takeWhile_stop (fun _ hx => hp.re hx) ?_).2
    intro c hc
    cases l with
    | nil => exact absurd rfl hne
    | cons x l =>
      cases hc
      exact not_re (h _ (.head _)).1
  have h2 := takeWhile_stop (fun x hx => reWord_of (h x hx)) (follows_not_word hr) (a := l)
  rw [bracketTokens, if_pos rfl, h1, h2.1, h2.2]
  congr 2
  cases l with
  | nil => rfl
  | cons x l => rw [List.dropWhile_cons, if_neg (by rw [(h x (.head _)).1]; simp)]

theorem btokens_inLine {ws : List (List Char)} {s : List Char} (h : InLine ws s) (hw : ∀ w ∈ ws, w ≠ [] ∧ ∀ c ∈ w, isUniSpace c = false ∧ c ≠ '(' ∧ c ≠ ')') :
    ∀ rest, Follows rest → bracketTokens (s ++ rest) = ws.map BTok.word ++ bracketTokens rest := by
  induction h with
  | @one w =>
    intro rest hr
    obtain ⟨h1, h2⟩ := hw w (.head _)
    rw [btokens_word h1 h2 hr]
    rfl
  | @cons w sep s ws h1 h2 h3 h4 ih =>
    intro rest hr
    obtain ⟨k1, k2⟩ := hw w (.head _)
    rw [List.append_assoc, List.append_assoc, btokens_word k1 k2 (follows_blank h1 h2), btokens_blanks h2, ih (fun w hx => hw w (.tail _ hx)) rest hr]
    rfl

theorem btoksAll_leaves (ws : List (List Char)) : PTree.btoksAll (ws.map PTree.leaf) = ws.map BTok.word := by
  induction ws with
  | nil => rfl
  | cons w ws ih => rw [List.map_cons, PTree.btoksAll, ih]; rfl

mutual
theorem btokens_layout : ∀ {t : PTree} {s : List Char}, DisLayout (fun ws s => InLine ws s ∧ ∀ w ∈ ws, w ≠ [] ∧ ∀ c ∈ w, isUniSpace c = false ∧ c ≠ '(' ∧ c ≠ ')') t s →
    ∀ rest, Follows rest → bracketTokens (s ++ rest) = t.btoks ++ bracketTokens rest
  | _, _, .leaf h => fun rest hr => by
    rw [btokens_word h.1 h.2.1 hr]
    rfl
  | _, _, .text (ws := ws) (pre := pre) (sep := sep) (s := s) (post := post) h1 h2 h3 h4 h5 h6 => fun rest hr => by
    have e := btokens_open h3 text_word.1 text_word.2.1 (follows_blank h4 h5 (r := s ++ (post ++ ')' :: rest)))
    simp only [List.cons_append, List.append_assoc, List.nil_append] at e ⊢
    rw [e, btokens_blanks h5, btokens_inLine h2.1 h2.2 _ (follows_blank' h6 (follows_close _)), btokens_blanks h6, btokens_close, PTree.btoks, btoksAll_leaves]
    simp
  | _, _, .node (l := l) (pre := pre) (body := body) (post := post) h1 h2 h3 h4 => fun rest hr => by
    simp only [List.cons_append, List.append_assoc, List.nil_append]
    rw [btokens_open h2 h1.1 h1.2.1 (follows_layouts h3 (follows_blank' h4 (follows_close _))), btokens_layouts h3 _ (follows_blank' h4 (follows_close _)), btokens_blanks h4, btokens_close, PTree.btoks]
    simp
theorem btokens_layouts : ∀ {ks : List PTree} {s : List Char}, DisLayouts (fun ws s => InLine ws s ∧ ∀ w ∈ ws, w ≠ [] ∧ ∀ c ∈ w, isUniSpace c = false ∧ c ≠ '(' ∧ c ≠ ')') ks s →
    ∀ rest, Follows rest → bracketTokens (s ++ rest) = PTree.btoksAll ks ++ bracketTokens rest
  | _, _, .nil => fun rest _ => rfl
  | _, _, .cons h1 h2 h3 h4 => fun rest hr => by
    simp only [List.append_assoc]
    rw [btokens_blanks h2, btokens_layout h3 _ (follows_layouts h4 hr), btokens_layouts h4 _ hr, PTree.btoksAll, List.append_assoc]
end

/-! the parser -/

/-- what was read so far -/
def stackToks : List (List Char × List PTree) → List BTok
  | [] => []
  | s :: st => stackToks st ++ .openB s.1 :: PTree.btoksAll s.2

theorem btoksAll_append (a b : List PTree) : PTree.btoksAll (a ++ b) = PTree.btoksAll a ++ PTree.btoksAll b := by
  induction a with
  | nil => rfl
  | cons k a ih => rw [List.cons_append, PTree.btoksAll, PTree.btoksAll, ih, List.append_assoc]

/-- what the parser accepts is the sequence of tokens of its result -/
theorem bparse_sound : ∀ (ts : List BTok) (st : List (List Char × List PTree)) (top : List PTree) (t : PTree), bracketParse st top ts = .ok t → (st ≠ [] → top = []) →
    PTree.btoksAll top ++ (stackToks st ++ ts) = t.btoks
  | [], st, top, t, h, _ => by
    cases st with
    | cons s st => cases top <;> simp [bracketParse] at h
    | nil =>
      match top, h with
      | [x], h =>
        cases h
        simp [PTree.btoksAll, stackToks]
      | [], h => simp [bracketParse] at h
      | _ :: _ :: _, h => simp [bracketParse] at h
  | .openB l :: ts, st, top, t, h, ht => by
    cases st with
    | nil =>
      simp only [bracketParse] at h
      split at h
      · rename_i he
        subst he
        have := bparse_sound ts _ _ _ h (fun _ => rfl)
        simpa [stackToks, PTree.btoksAll] using this
      · cases h
    | cons s st =>
      simp only [bracketParse] at h
      have hx := ht (by simp)
      subst hx
      have := bparse_sound ts _ _ _ h (fun _ => rfl)
      simpa [stackToks, PTree.btoksAll] using this
  | .closeB :: ts, st, top, t, h, ht => by
    match st, h, ht with
    | [], h, _ => simp [bracketParse] at h
    | [s], h, ht =>
      simp only [bracketParse] at h
      have hx := ht (by simp)
      subst hx
      have := bparse_sound ts _ _ _ h (fun hc => absurd rfl hc)
      simpa [stackToks, PTree.btoksAll, PTree.btoks] using this
    | s :: s' :: st, h, ht =>
      simp only [bracketParse] at h
      have hx := ht (by simp)
      subst hx
      have := bparse_sound ts _ _ _ h (fun _ => rfl)
      simpa [stackToks, PTree.btoksAll, PTree.btoks, btoksAll_append] using this
  | .word w :: ts, st, top, t, h, ht => by
    cases st with
    | nil => simp [bracketParse] at h
    | cons s st =>
      simp only [bracketParse] at h
      have hx := ht (by simp)
      subst hx
      have := bparse_sound ts _ _ _ h (fun _ => rfl)
      simpa [stackToks, PTree.btoksAll, PTree.btoks, btoksAll_append] using this

mutual
theorem bparse_tree : ∀ (t : PTree), t.Real → ∀ (s : List Char × List PTree) (st : List (List Char × List PTree)) (top : List PTree) (rest : List BTok),
    bracketParse (s :: st) top (t.btoks ++ rest) = bracketParse ((s.1, s.2 ++ [t]) :: st) top rest
  | .leaf w, _, s, st, top, rest => by
    simp only [PTree.btoks, List.cons_append, List.nil_append, bracketParse]
  | .none, h, _, _, _, _ => nomatch h
  | .node l ks, h, s, st, top, rest => by
    have hk : ∀ k ∈ ks, k.Real := by cases h; assumption
    simp only [PTree.btoks, List.cons_append, List.nil_append, List.append_assoc, bracketParse]
    rw [bparse_trees ks hk (l, []) (s :: st) top]
    simp only [bracketParse, List.nil_append]
theorem bparse_trees : ∀ (ks : List PTree), (∀ k ∈ ks, k.Real) → ∀ (s : List Char × List PTree) (st : List (List Char × List PTree)) (top : List PTree) (rest : List BTok),
    bracketParse (s :: st) top (PTree.btoksAll ks ++ rest) = bracketParse ((s.1, s.2 ++ ks) :: st) top rest
  | [], _, s, st, top, rest => by simp [PTree.btoksAll]
  | k :: ks, h, s, st, top, rest => by
    rw [PTree.btoksAll, List.append_assoc, bparse_tree k (h k (.head _)), bparse_trees ks (fun k hk => h k (.tail _ hk))]
    simp
end

/-- a bracketed tree is read as that tree -/
theorem bparse_complete {l : List Char} {ks : List PTree} (h : (PTree.node l ks).Real) : bracketParse [] [] (PTree.node l ks).btoks = .ok (.node l ks) := by
  have hk : ∀ k ∈ ks, k.Real := by cases h; assumption
  simp only [PTree.btoks, bracketParse, if_true]
  rw [bparse_trees ks hk (l, []) [] []]
  simp only [bracketParse, List.nil_append]

/-- what the parser accepts is a tree with a label -/
theorem bparse_real : ∀ (ts : List BTok) (st : List (List Char × List PTree)) (top : List PTree) (t : PTree), bracketParse st top ts = .ok t → (∀ s ∈ st, ∀ k ∈ s.2, k.Real) →
    (∀ k ∈ top, k.Real ∧ ∃ l ks, k = .node l ks) → t.Real ∧ ∃ l ks, t = .node l ks
  | [], st, top, t, h, _, ht => by
    cases st with
    | cons s st => cases top <;> simp [bracketParse] at h
    | nil =>
      match top, h, ht with
      | [x], h, ht =>
        cases h
        exact ht _ (.head _)
      | [], h, _ => simp [bracketParse] at h
      | _ :: _ :: _, h, _ => simp [bracketParse] at h
  | .openB l :: ts, st, top, t, h, hs, ht => by
    cases st with
    | nil =>
      simp only [bracketParse] at h
      split at h
      · exact bparse_real ts _ _ _ h (by simp) ht
      · cases h
    | cons s st =>
      simp only [bracketParse] at h
      refine bparse_real ts _ _ _ h ?_ ht
      intro x hx
      rcases List.mem_cons.1 hx with rfl | hx
      · simp
      · exact hs x hx
  | .closeB :: ts, st, top, t, h, hs, ht => by
    match st, h, hs with
    | [], h, _ => simp [bracketParse] at h
    | [s], h, hs =>
      simp only [bracketParse] at h
      refine bparse_real ts _ _ _ h (by simp) ?_
      intro k hk
      rcases List.mem_append.1 hk with hk | hk
      · exact ht k hk
      · rw [List.mem_singleton.1 hk]
        exact ⟨.node (hs s (.head _)), _, _, rfl⟩
    | s :: s' :: st, h, hs =>
      simp only [bracketParse] at h
      refine bparse_real ts _ _ _ h ?_ ht
      intro x hx
      rcases List.mem_cons.1 hx with rfl | hx
      · intro k hk
        rcases List.mem_append.1 hk with hk | hk
        · exact hs s' (.tail _ (.head _)) k hk
        · rw [List.mem_singleton.1 hk]
          exact .node (hs s (.head _))
      · exact hs x (.tail _ (.tail _ hx))
  | .word w :: ts, st, top, t, h, hs, ht => by
    cases st with
    | nil => simp [bracketParse] at h
    | cons s st =>
      simp only [bracketParse] at h
      refine bparse_real ts _ _ _ h ?_ ht
      intro x hx
      rcases List.mem_cons.1 hx with rfl | hx
      · intro k hk
        rcases List.mem_append.1 hk with hk | hk
        · exact hs s (.head _) k hk
        · rw [List.mem_singleton.1 hk]
          exact .leaf
      · exact hs x (.tail _ hx)

/-- the opening brackets of a sequence of tokens -/
def BTok.isOpen : BTok → Bool
  | .openB _ => true
  | _ => false

/-- the closing brackets of a sequence of tokens -/
def BTok.isClose : BTok → Bool
  | .closeB => true
  | _ => false

theorem count_takeWhile (c : Char) (p : Char → Bool) (hp : p c = false) (s : List Char) : (s.dropWhile p).count c = s.count c := by
  have h := congrArg (List.count c) (List.takeWhile_append_dropWhile (p := p) (l := s))
  rw [List.count_append, List.count_eq_zero_of_not_mem] at h
  · omega
  · intro hx
    rw [List.all_eq_true.1 List.all_takeWhile c hx] at hp
    cases hp

theorem btokens_count (s : List Char) : (bracketTokens s).countP BTok.isOpen = s.count '(' ∧ (bracketTokens s).countP BTok.isClose = s.count ')' := by
  induction hn : s.length using Nat.strongRecOn generalizing s with
  | _ n ih =>
    subst hn
    cases s with
    | nil => simp [bracketTokens]
    | cons c r =>
      rw [bracketTokens]
      split
      · rename_i hc
        subst hc
        have h1 := dropWhile_length_le isReWord (r.dropWhile isReSpace)
        have h2 := dropWhile_length_le isReSpace r
        have := ih _ (by simp only [List.length_cons]; omega) ((r.dropWhile isReSpace).dropWhile isReWord) rfl
        rw [List.countP_cons, List.countP_cons, this.1, this.2, count_takeWhile _ _ (by decide), count_takeWhile _ _ (by decide), count_takeWhile _ _ (by decide), count_takeWhile _ _ (by decide)]
        simp [BTok.isOpen, BTok.isClose]
      · split
        · rename_i _ hc
          subst hc
          have := ih _ (by simp) r rfl
          rw [List.countP_cons, List.countP_cons, this.1, this.2]
          simp [BTok.isOpen, BTok.isClose]
        · rename_i h1 h2
          split
          · have := ih _ (by simp) r rfl
            rw [this.1, this.2, List.count_cons_of_ne h1, List.count_cons_of_ne h2]
            exact ⟨rfl, rfl⟩
          · have hl := dropWhile_length_le isReWord r
            have := ih _ (by simp only [List.length_cons]; omega) (r.dropWhile isReWord) rfl
            rw [List.countP_cons, List.countP_cons, this.1, this.2, count_takeWhile _ _ (by decide), count_takeWhile _ _ (by decide), List.count_cons_of_ne h1, List.count_cons_of_ne h2]
            simp [BTok.isOpen, BTok.isClose]

mutual
theorem btoks_balanced : ∀ t : PTree, t.btoks.countP BTok.isOpen = t.btoks.countP BTok.isClose
  | .leaf _ => rfl
  | .none => rfl
  | .node l ks => by
    rw [PTree.btoks, List.countP_cons, List.countP_cons, List.countP_append, List.countP_append, btoksAll_balanced ks]
    simp [BTok.isOpen, BTok.isClose]
theorem btoksAll_balanced : ∀ ks : List PTree, (PTree.btoksAll ks).countP BTok.isOpen = (PTree.btoksAll ks).countP BTok.isClose
  | [] => rfl
  | k :: ks => by rw [PTree.btoksAll, List.countP_append, List.countP_append, btoks_balanced k, btoksAll_balanced ks]
end

end Dg
