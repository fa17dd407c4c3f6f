import Verif.Lemmas.ConllScript

/-! The text of a CoNLL file. -/

namespace Dg
open Dict

/-! ### numbers -/

theorem mem_dropWhile_or {α : Type} {p : α → Bool} {c : α} {s : List α} (h : c ∈ s) : c ∈ s.dropWhile p ∨ p c = true := by
  induction s with
  | nil => cases h
  | cons a s ih =>
    rw [List.dropWhile_cons]
    split
    · next ha =>
      rcases List.mem_cons.1 h with rfl | h
      · exact .inr ha
      · exact ih h
    · exact .inl h

theorem mem_pyStrip_or {c : Char} {s : List Char} (h : c ∈ s) : c ∈ pyStrip s ∨ isSpaceChar c = true := by
  unfold pyStrip
  rcases mem_dropWhile_or (p := isSpaceChar) h with h | h
  · rcases mem_dropWhile_or (p := isSpaceChar) (List.mem_reverse.2 h) with h | h
    · exact .inl (List.mem_reverse.2 h)
    · exact .inr h
  · exact .inr h

theorem pyNat_chars {s : List Char} {n : Nat} (h : pyNat s = some n) : s ≠ [] ∧ ∀ c ∈ s, isDigitChar c = true := by
  unfold pyNat at h
  split at h
  · next hc => exact ⟨hc.1, List.all_eq_true.1 hc.2⟩
  · cases h

/-- numbers consist of digits, signs and white space -/
theorem pyInt_chars {s : List Char} {i : Int} (h : pyInt s = some i) : s ≠ [] ∧ ∀ c ∈ s, isSpaceChar c = true ∨ isDigitChar c = true ∨ c = '-' ∨ c = '+' := by
  have key : pyStrip s ≠ [] ∧ ∀ c ∈ pyStrip s, isDigitChar c = true ∨ c = '-' ∨ c = '+' := by
    unfold pyInt at h
    split at h
    · next ds e =>
      rw [e]
      cases hn : pyNat ds with
      | none => rw [hn] at h; cases h
      | some n =>
        refine ⟨by simp, ?_⟩
        intro c hc
        rcases List.mem_cons.1 hc with rfl | hc
        · exact .inr (.inl rfl)
        · exact .inl ((pyNat_chars hn).2 c hc)
    · next ds e =>
      rw [e]
      cases hn : pyNat ds with
      | none => rw [hn] at h; cases h
      | some n =>
        refine ⟨by simp, ?_⟩
        intro c hc
        rcases List.mem_cons.1 hc with rfl | hc
        · exact .inr (.inr rfl)
        · exact .inl ((pyNat_chars hn).2 c hc)
    · cases hn : pyNat (pyStrip s) with
      | none => rw [hn] at h; cases h
      | some n => exact ⟨(pyNat_chars hn).1, fun c hc => .inl ((pyNat_chars hn).2 c hc)⟩
  refine ⟨?_, ?_⟩
  · rintro rfl
    exact key.1 rfl
  · intro c hc
    rcases mem_pyStrip_or hc with h | h
    · exact .inr (key.2 c h)
    · exact .inl h

/-! ### `strip` and `split` -/

theorem dropWhile_all {α : Type} {p : α → Bool} : ∀ {a s : List α}, (∀ c ∈ a, p c = true) → (∀ c, s.head? = some c → p c = false) → (a ++ s).dropWhile p = s
  | [], s, _, h => by
    cases s with
    | nil => rfl
    | cons c s => rw [List.nil_append, List.dropWhile_cons_of_neg]; rw [h c rfl]; simp
  | x :: a, s, ha, h => by
    rw [List.cons_append, List.dropWhile_cons_of_pos (ha x (by simp))]
    exact dropWhile_all (fun c hc => ha c (List.mem_cons_of_mem _ hc)) h

theorem stripUni_border {pre body post : List Char} (h : ∀ c ∈ pre ++ post, isUniSpace c = true) (h1 : ∃ c, body.head? = some c ∧ isUniSpace c = false) (h2 : ∃ c, body.getLast? = some c ∧ isUniSpace c = false) :
    stripUni (pre ++ body ++ post) = body := by
  unfold stripUni
  rw [List.append_assoc, dropWhile_all (fun c hc => h c (List.mem_append_left _ hc)), List.reverse_append, dropWhile_all, List.reverse_reverse]
  · intro c hc
    exact h c (List.mem_append_right _ (List.mem_reverse.1 hc))
  · intro c hc
    rw [List.head?_reverse] at hc
    obtain ⟨d, hd, hd2⟩ := h2
    rw [hd] at hc
    obtain rfl := Option.some.inj hc
    exact hd2
  · intro c hc
    obtain ⟨d, hd, hd2⟩ := h1
    rw [List.head?_append, hd] at hc
    obtain rfl := Option.some.inj hc
    exact hd2

theorem splitBlank_ne (s : List Char) : splitBlank s ≠ [] := by
  cases s with
  | nil => simp [splitBlank]
  | cons a s =>
    cases s with
    | nil => simp [splitBlank]
    | cons b s =>
      unfold splitBlank
      split
      · simp
      · cases splitBlank (b :: s) <;> simp [pushHead]

theorem splitBlank_cons {a : Char} {s : List Char} (h : a ≠ '\n' ∨ s.head? ≠ some '\n') : splitBlank (a :: s) = pushHead a (splitBlank s) := by
  cases s with
  | nil => rfl
  | cons b s =>
    unfold splitBlank
    rw [if_neg]
    · cases s <;> rfl
    · rintro ⟨rfl, rfl⟩
      rcases h with h | h
      · exact h rfl
      · exact h rfl

theorem splitBlank_line {l : List Char} (hl : '\n' ∉ l) {s p : List Char} {ps : List (List Char)} (h : splitBlank s = p :: ps) : splitBlank (l ++ s) = (l ++ p) :: ps := by
  induction l with
  | nil => exact h
  | cons a l ih =>
    rw [List.cons_append, splitBlank_cons (.inl (fun e => hl (by simp [e]))), ih (fun e => hl (List.mem_cons_of_mem _ e))]
    rfl

theorem splitBlank_lines : ∀ {ls : List (List Char)}, ls ≠ [] → (∀ l ∈ ls, l ≠ [] ∧ '\n' ∉ l) → ∀ {t : List Char} {ps : List (List Char)}, splitBlank t = [] :: ps → splitBlank (joinChars ['\n'] ls ++ t) = joinChars ['\n'] ls :: ps
  | [], h, _, _, _, _ => absurd rfl h
  | [l], _, h, t, ps, ht => by
    have := splitBlank_line (h l (by simp)).2 ht
    rwa [List.append_nil] at this
  | l :: m :: ls, _, h, t, ps, ht => by
    have ih := splitBlank_lines (ls := m :: ls) (by simp) (fun x hx => h x (List.mem_cons_of_mem _ hx)) ht
    have e : joinChars ['\n'] (l :: m :: ls) = l ++ '\n' :: joinChars ['\n'] (m :: ls) := by simp [joinChars]
    rw [e, List.append_assoc]
    apply splitBlank_line (h l (by simp)).2
    rw [List.cons_append, splitBlank_cons, ih]
    · rfl
    · right
      obtain ⟨hm1, hm2⟩ := h m (by simp)
      cases m with
      | nil => exact absurd rfl hm1
      | cons c m =>
        have : (joinChars ['\n'] ((c :: m) :: ls) ++ t).head? = some c := by
          cases ls with
          | nil => rfl
          | cons y ys => simp [joinChars]
        rw [this]
        rintro e
        obtain rfl := Option.some.inj e
        exact hm2 (by simp)

theorem splitBlank_sents : ∀ {lss : List (List (List Char))}, lss ≠ [] → (∀ ls ∈ lss, ls ≠ [] ∧ ∀ l ∈ ls, l ≠ [] ∧ '\n' ∉ l) → splitBlank (joinChars ['\n', '\n'] (lss.map (joinChars ['\n']))) = lss.map (joinChars ['\n'])
  | [], h, _ => absurd rfl h
  | [ls], _, h => by
    have := splitBlank_lines (h ls (by simp)).1 (h ls (by simp)).2 (t := []) (ps := []) rfl
    rwa [List.append_nil] at this
  | ls :: ms :: lss, _, h => by
    have ih := splitBlank_sents (lss := ms :: lss) (by simp) (fun x hx => h x (List.mem_cons_of_mem _ hx))
    have := splitBlank_lines (h ls (by simp)).1 (h ls (by simp)).2 (t := '\n' :: '\n' :: joinChars ['\n', '\n'] ((ms :: lss).map (joinChars ['\n']))) (ps := (ms :: lss).map (joinChars ['\n'])) (by
      rw [splitBlank, if_pos ⟨rfl, rfl⟩, ih])
    have e : joinChars ['\n', '\n'] ((ls :: ms :: lss).map (joinChars ['\n'])) = joinChars ['\n'] ls ++ '\n' :: '\n' :: joinChars ['\n', '\n'] ((ms :: lss).map (joinChars ['\n'])) := by
      rw [List.map_cons, List.map_cons, joinChars, List.append_assoc]
      rfl
    rw [e, this]
    rfl

/-! ### lines -/

theorem zip_take {α β : Type} : ∀ (xs : List α) (ys : List β), xs.zip (ys.take xs.length) = xs.zip ys
  | [], _ => rfl
  | _ :: _, [] => rfl
  | x :: xs, y :: ys => by simp [zip_take xs ys]

theorem columns_length (cfg : ConllCfg) : cfg.columns.length = if cfg.new then 17 else 14 := by
  unfold ConllCfg.columns
  cases cfg.new <;> rfl

theorem joinChars_mem {sep : List Char} {c : Char} : ∀ {xs : List (List Char)}, c ∈ joinChars sep xs → c ∈ sep ∨ ∃ x ∈ xs, c ∈ x
  | [], h => by cases h
  | [x], h => .inr ⟨x, by simp, h⟩
  | x :: y :: xs, h => by
    rw [joinChars, List.mem_append, List.mem_append] at h
    rcases h with (h | h) | h
    · exact .inr ⟨x, by simp, h⟩
    · exact .inl h
    · rcases joinChars_mem h with h | ⟨z, hz, h⟩
      · exact .inl h
      · exact .inr ⟨z, List.mem_cons_of_mem _ hz, h⟩

/-- the first column of a word is a number -/
def ConllLine.Numbered : ConllLine → Prop
  | .comment _ => True
  | .word fs => ∃ n rest i, fs = n :: rest ∧ pyInt n = some i

/-- the named columns of a word -/
def ConllLine.columns (cols : List String) : ConllLine → Option (Dict String (List Char))
  | .comment _ => none
  | .word fs => some (cols.zip fs)

theorem conllLine_ok (cfg : ConllCfg) {l : ConllLine} (h : l.Ok cfg.new) (hn : l.Numbered) : l.text ≠ [] ∧ '\n' ∉ l.text ∧ conllLine cfg l.text = .ok (l.columns cfg.columns) := by
  cases l with
  | comment c =>
    refine ⟨by simp [ConllLine.text], ?_, rfl⟩
    intro hc
    rcases List.mem_cons.1 hc with e | hc
    · cases e
    · exact h hc
  | word fs =>
    obtain ⟨n, rest, i, rfl, hi⟩ := hn
    obtain ⟨hne, hch⟩ := pyInt_chars hi
    obtain ⟨h1, h2⟩ := h
    have hhead : ∃ c, (joinChars ['\t'] (n :: rest)).head? = some c ∧ c ∈ n := by
      cases n with
      | nil => exact absurd rfl hne
      | cons c n =>
        refine ⟨c, ?_, by simp⟩
        cases rest with
        | nil => rfl
        | cons y ys => simp [joinChars]
    obtain ⟨c, hc1, hc2⟩ := hhead
    have hsplit : splitChars '\t' (joinChars ['\t'] (n :: rest)) = n :: rest := splitChars_join '\t' _ (by simp) (fun x hx => (h1 x hx).1)
    refine ⟨?_, ?_, ?_⟩
    · intro e
      rw [show joinChars ['\t'] (n :: rest) = [] from e] at hc1
      cases hc1
    · intro hc
      rcases joinChars_mem (show '\n' ∈ joinChars ['\t'] (n :: rest) from hc) with e | ⟨x, hx, hc⟩
      · exact absurd e (by decide)
      · exact (h1 x hx).2 hc
    · show conllLine cfg (joinChars ['\t'] (n :: rest)) = .ok (some (cfg.columns.zip (n :: rest)))
      unfold conllLine
      rw [if_neg, hsplit]
      · unfold makeWord
        rw [columns_length]
        have hlen := columns_length cfg
        cases hcn : cfg.new with
        | true =>
          rw [hcn] at h2
          simp only [if_true] at h2 ⊢
          rw [if_pos h2]
          rfl
        | false =>
          rw [hcn] at h2 hlen
          simp only [Bool.false_eq_true, if_false] at h2 hlen ⊢
          rw [if_pos (by rw [List.length_take]; omega)]
          show Except.ok (some (cfg.columns.zip ((n :: rest).take 14))) = _
          rw [← hlen, zip_take]
      · rw [hc1]
        intro e
        obtain rfl := Option.some.inj e
        rcases hch '#' hc2 with e | e | e | e <;> exact absurd e (by decide)

namespace DG

theorem parsesTo_lines (cfg : ConllCfg) : ∀ {ls : List ConllLine}, (∀ l ∈ ls, l.Ok cfg.new ∧ l.Numbered) → ∃ os, List.Forall₂ (fun l o => conllLine cfg l = .ok o) (ls.map ConllLine.text) os ∧ os.filterMap id = conllWords cfg.columns ls
  | [], _ => ⟨[], .nil, rfl⟩
  | l :: ls, h => by
    obtain ⟨os, h1, h2⟩ := parsesTo_lines cfg (ls := ls) (fun x hx => h x (List.mem_cons_of_mem _ hx))
    have hl := (conllLine_ok cfg (h l (by simp)).1 (h l (by simp)).2).2.2
    cases l with
    | comment c => exact ⟨none :: os, .cons hl h1, h2⟩
    | word fs => exact ⟨some _ :: os, .cons hl h1, by rw [conllWords, ← h2]; rfl⟩

theorem conllFile_parses (cfg : ConllCfg) {ss : List (List ConllLine)} {text : List Char} (h : ConllFile cfg.new ss text) (hn : ∀ ls ∈ ss, ∀ l ∈ ls, l.Numbered) :
    List.Forall₂ (ParsesTo cfg) (splitBlank (stripUni text)) (ss.map (conllWords cfg.columns)) := by
  obtain ⟨hne, hok, pre, post, body, rfl, hb, h1, h2, h3⟩ := h
  rw [stripUni_border h1 h2 h3, hb]
  have e : ss.map conllSentText = (ss.map (fun ls => ls.map ConllLine.text)).map (joinChars ['\n']) := by rw [List.map_map]; rfl
  have hall : ∀ ls ∈ ss, ∀ l ∈ ls, l.text ≠ [] ∧ '\n' ∉ l.text := fun ls hls l hl => by
    have := conllLine_ok cfg ((hok ls hls).2 l hl) (hn ls hls l hl)
    exact ⟨this.1, this.2.1⟩
  rw [e, splitBlank_sents (by simpa using hne), ← e, List.forall₂_map_left_iff, List.forall₂_map_right_iff, List.forall₂_same]
  · intro ls hls
    obtain ⟨os, h4, h5⟩ := parsesTo_lines cfg (ls := ls) (fun l hl => ⟨(hok ls hls).2 l hl, hn ls hls l hl⟩)
    refine ⟨os, ?_, h5⟩
    unfold conllSentText
    rw [splitChars_join '\n' _ (by simpa using (hok ls hls).1) (by
      intro t ht
      obtain ⟨l, hl, rfl⟩ := List.mem_map.1 ht
      exact (hall ls hls l hl).2)]
    exact h4
  · intro ts hts
    obtain ⟨ls, hls, rfl⟩ := List.mem_map.1 hts
    refine ⟨by simpa using (hok ls hls).1, ?_⟩
    intro t ht
    obtain ⟨l, hl, rfl⟩ := List.mem_map.1 ht
    exact hall ls hls l hl

end DG
end Dg
