import Verif.Lemmas.Conano

/-! Words of a Conano document. -/

namespace Dg
open Dict
open DG (wordsOf_append wordsOf_map)

theorem getLast?_append_cons {α : Type} (a : List α) (x : α) (s : List α) : (a ++ x :: s).getLast? = (x :: s).getLast? := by
  rw [List.getLast?_append]
  cases h : (x :: s).getLast? with
  | none => simp at h
  | some y => rfl

theorem splitWsAux_splitBy : ∀ (s cur : List Char), splitWsAux cur s = splitByAux isUniSpace cur s
  | [], _ => rfl
  | c :: r, cur => by rw [splitWsAux, splitByAux, splitWsAux_splitBy r [], splitWsAux_splitBy r (c :: cur)]

theorem splitWs_splitBy (s : List Char) : splitWs s = splitBy isUniSpace s := splitWsAux_splitBy s []

mutual
/-- the words in the graph are the words of the pieces of text -/
theorem steps_words {ns : String} : ∀ (e : CElem) (up : Option (Dict String String)) (p : NodeId) (t : CTree), e.resolve ns up = .ok t → (wordsOf (t.steps p)).map Prod.snd = e.pieces.flatMap splitWs
  | .elem tag a text kids tail, up, p, t, h => by
    unfold CElem.resolve at h
    cases hi : conanoId ns tag a up with
    | error _ => rw [hi] at h; cases h
    | ok r =>
      rw [hi] at h
      change (CElem.resolveAll ns (some a) kids >>= fun ks => pure (CTree.node r.1 r.2 text ks tail)) = _ at h
      cases hk : CElem.resolveAll ns (some a) kids with
      | error _ => rw [hk] at h; cases h
      | ok ks =>
        rw [hk] at h
        obtain rfl := Except.ok.inj h
        unfold CTree.steps CElem.pieces
        have e1 : ∀ s, wordsOf (CStep.elem p r.1 r.2 :: s) = wordsOf s := fun _ => rfl
        have hm : ∀ (q : NodeId) (ws : List (List Char)), (ws.map (fun w => (q, w))).map Prod.snd = ws := by
          intro q ws; rw [List.map_map]; exact List.map_id ws
        rw [e1, wordsOf_append, wordsOf_append, wordsOf_map, wordsOf_map, List.map_append, List.map_append, hm, hm, stepsAll_words kids (some a) (.str r.1) ks hk, List.flatMap_cons, List.flatMap_append,
          List.flatMap_singleton, List.append_assoc]
/-- the same for a list of elements -/
theorem stepsAll_words {ns : String} : ∀ (es : List CElem) (up : Option (Dict String String)) (p : NodeId) (ts : List CTree), CElem.resolveAll ns up es = .ok ts → (wordsOf (CTree.stepsAll p ts)).map Prod.snd = (CElem.piecesAll es).flatMap splitWs
  | [], up, p, ts, h => by
    unfold CElem.resolveAll at h
    obtain rfl := Except.ok.inj h
    rfl
  | e :: es, up, p, ts, h => by
    unfold CElem.resolveAll at h
    cases h1 : e.resolve ns up with
    | error _ => rw [h1] at h; cases h
    | ok t =>
      rw [h1] at h
      change (CElem.resolveAll ns up es >>= fun ts => pure (t :: ts)) = _ at h
      cases h2 : CElem.resolveAll ns up es with
      | error _ => rw [h2] at h; cases h
      | ok ts' =>
        rw [h2] at h
        obtain rfl := Except.ok.inj h
        unfold CTree.stepsAll CElem.piecesAll
        rw [wordsOf_append, List.map_append, steps_words e up p t h1, stepsAll_words es up p ts' h2, List.flatMap_append]
end

mutual
/-- every element has the namespace as a layer -/
theorem steps_layers {ns : String} : ∀ (e : CElem) (up : Option (Dict String String)) (p : NodeId) (t : CTree), e.resolve ns up = .ok t → ∀ q id ls, .elem q id ls ∈ t.steps p → ns ∈ ls
  | .elem tag a text kids tail, up, p, t, h => by
    unfold CElem.resolve at h
    cases hi : conanoId ns tag a up with
    | error _ => rw [hi] at h; cases h
    | ok r =>
      rw [hi] at h
      change (CElem.resolveAll ns (some a) kids >>= fun ks => pure (CTree.node r.1 r.2 text ks tail)) = _ at h
      cases hk : CElem.resolveAll ns (some a) kids with
      | error _ => rw [hk] at h; cases h
      | ok ks =>
        rw [hk] at h
        obtain rfl := Except.ok.inj h
        intro q id ls hm
        unfold CTree.steps at hm
        rcases List.mem_cons.1 hm with hm | hm
        · injection hm with _ _ h3
          rw [h3]
          exact DG.conanoId_layers hi
        · rcases List.mem_append.1 hm with hm | hm
          · rcases List.mem_append.1 hm with hm | hm
            · obtain ⟨_, _, h⟩ := List.mem_map.1 hm; cases h
            · exact stepsAll_layers kids (some a) (.str r.1) ks hk q id ls hm
          · obtain ⟨_, _, h⟩ := List.mem_map.1 hm; cases h
/-- the same for a list of elements -/
theorem stepsAll_layers {ns : String} : ∀ (es : List CElem) (up : Option (Dict String String)) (p : NodeId) (ts : List CTree), CElem.resolveAll ns up es = .ok ts → ∀ q id ls, .elem q id ls ∈ CTree.stepsAll p ts → ns ∈ ls
  | [], up, p, ts, h => by
    unfold CElem.resolveAll at h
    obtain rfl := Except.ok.inj h
    intro q id ls hm
    cases hm
  | e :: es, up, p, ts, h => by
    unfold CElem.resolveAll at h
    cases h1 : e.resolve ns up with
    | error _ => rw [h1] at h; cases h
    | ok t =>
      rw [h1] at h
      change (CElem.resolveAll ns up es >>= fun ts => pure (t :: ts)) = _ at h
      cases h2 : CElem.resolveAll ns up es with
      | error _ => rw [h2] at h; cases h
      | ok ts' =>
        rw [h2] at h
        obtain rfl := Except.ok.inj h
        intro q id ls hm
        unfold CTree.stepsAll at hm
        rcases List.mem_append.1 hm with hm | hm
        · exact steps_layers e up p t h1 q id ls hm
        · exact stepsAll_layers es up p ts' h2 q id ls hm
end

mutual
/-- the text consists of the pieces -/
theorem plainText_pieces : ∀ e : CElem, DG.plainText e = e.pieces.flatten
  | .elem tag a text kids tail => by
    unfold DG.plainText CElem.pieces
    rw [plainTexts_pieces kids, List.flatten_cons, List.flatten_append, List.flatten_singleton, List.append_assoc]
/-- the same for a list of elements -/
theorem plainTexts_pieces : ∀ es : List CElem, DG.plainTexts es = (CElem.piecesAll es).flatten
  | [] => rfl
  | e :: es => by
    unfold DG.plainTexts CElem.piecesAll
    rw [plainText_pieces e, plainTexts_pieces es, List.flatten_append]
end

theorem Words.append_left {p : Char → Bool} {a : List Char} {ws : List (List Char)} (h : Words p a ws) : ∀ {b : List Char} {vs : List (List Char)}, Words p b vs → Border p a b → Words p (a ++ b) (ws ++ vs) := by
  induction h with
  | nil => intro b vs hb _; exact hb
  | @space c s ws hc hs ih =>
    intro b vs hb hbd
    refine .space hc (ih hb ?_)
    rcases hbd with h | h | ⟨d, h, hd⟩ | h
    · cases h
    · exact .inr (.inl h)
    · cases s with
      | nil => exact .inl rfl
      | cons x s =>
        refine .inr (.inr (.inl ⟨d, ?_, hd⟩))
        rw [← h]
        simp
    · exact .inr (.inr (.inr h))
  | @word w s ws hw hn hsep hs ih =>
    intro b vs hb hbd
    rw [List.append_assoc, List.cons_append]
    have hbd' : Border p s b := by
      rcases hbd with h | h | ⟨d, h, hd⟩ | h
      · exact absurd (List.append_eq_nil_iff.1 h).1 hw
      · exact .inr (.inl h)
      · cases s with
        | nil => exact .inl rfl
        | cons x s =>
          refine .inr (.inr (.inl ⟨d, ?_, hd⟩))
          rw [← h, getLast?_append_cons]
      · exact .inr (.inr (.inr h))
    refine .word hw hn ?_ (ih hb hbd')
    intro c hc
    cases s with
    | cons x s => exact hsep c hc
    | nil =>
      rw [List.nil_append] at hc
      rcases hbd with h | h | ⟨d, h, hd⟩ | ⟨d, h, hd⟩
      · exact absurd (List.append_eq_nil_iff.1 h).1 hw
      · rw [h] at hc; cases hc
      · rw [List.append_nil] at h
        have := hn d (List.mem_of_getLast? h)
        rw [hd] at this
        cases this
      · rw [hc] at h
        obtain rfl := Option.some.inj h
        exact hd

theorem words_pieces {p : Char → Bool} : ∀ {ps : List (List Char)}, SeparatedPieces p ps → Words p ps.flatten (ps.flatMap (splitBy p))
  | [], _ => .nil
  | x :: ps, h => by
    rw [List.flatten_cons, List.flatMap_cons]
    refine (splitBy_words p x).append_left (words_pieces ?_) ?_
    · intro xs ys e
      rcases h (x :: xs) ys (by rw [e]; rfl) with h | h | ⟨d, h, hd⟩ | h
      · rw [List.flatten_cons] at h
        exact .inl (List.append_eq_nil_iff.1 h).2
      · exact .inr (.inl h)
      · rw [List.flatten_cons] at h
        cases hx : xs.flatten with
        | nil => exact .inl rfl
        | cons y ys =>
          refine .inr (.inr (.inl ⟨d, ?_, hd⟩))
          rw [← h, hx, getLast?_append_cons]
      · exact .inr (.inr (.inr h))
    · have := h [x] ps rfl
      simpa using this

/-- the words contain all characters that are no separators -/
theorem Words.flatten {p : Char → Bool} {s : List Char} {ws : List (List Char)} (h : Words p s ws) : ws.flatten = s.filter (fun c => !p c) := by
  induction h with
  | nil => rfl
  | space hc _ ih => rw [List.filter_cons, ih]; simp [hc]
  | word hw hn _ _ ih =>
    rw [List.flatten_cons, ih, List.filter_append]
    congr 1
    symm
    rw [List.filter_eq_self]
    intro c hc
    simp [hn c hc]

theorem uni_of_ascii {c : Char} (h : isAsciiSpace c = true) : isUniSpace c = true := by
  unfold isAsciiSpace at h
  unfold isUniSpace
  simp only [Bool.or_eq_true, Bool.and_eq_true, decide_eq_true_eq, beq_iff_eq] at h ⊢
  omega

theorem flatten_split_pieces (p : Char → Bool) (ps : List (List Char)) : (ps.flatMap (splitBy p)).flatten = ps.flatten.filter (fun c => !p c) := by
  induction ps with
  | nil => rfl
  | cons x ps ih => rw [List.flatMap_cons, List.flatten_append, ih, (splitBy_words p x).flatten, List.flatten_cons, List.filter_append]

/-- If the words of the text are the first of the words of the pieces, then they are all of them. -/
theorem words_prefix {ps : List (List Char)} (h : splitBy isAsciiSpace ps.flatten <+: ps.flatMap (splitBy isUniSpace)) : splitBy isAsciiSpace ps.flatten = ps.flatMap (splitBy isUniSpace) := by
  obtain ⟨r, hr⟩ := h
  have h1 := (splitBy_words isAsciiSpace ps.flatten).flatten
  have h2 := flatten_split_pieces isUniSpace ps
  rw [← hr, List.flatten_append, h1] at h2
  have hl := congrArg List.length h2
  rw [List.length_append] at hl
  have hle : (ps.flatten.filter (fun c => !isUniSpace c)).length ≤ (ps.flatten.filter (fun c => !isAsciiSpace c)).length := by
    rw [← List.countP_eq_length_filter, ← List.countP_eq_length_filter]
    apply List.countP_mono_left
    intro c _ hc
    simp only [Bool.not_eq_true', Bool.eq_false_iff] at hc ⊢
    exact fun h => hc (uni_of_ascii h)
  have hr0 : r.flatten.length = 0 := by omega
  have : r = [] := by
    cases r with
    | nil => rfl
    | cons w r =>
      exfalso
      have hmem : w ∈ ps.flatMap (splitBy isUniSpace) := by rw [← hr]; simp
      obtain ⟨x, _, hx⟩ := List.mem_flatMap.1 hmem
      have := ((splitBy_words isUniSpace x).mem w hx).1
      rw [List.flatten_cons, List.length_append] at hr0
      exact this (List.length_eq_zero_iff.1 (by omega))
  rw [← hr, this, List.append_nil]

end Dg
