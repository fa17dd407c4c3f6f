import Verif.Lemmas.WordWrap
import Verif.Spec.DisText

/-! C79: line wrapping of the EDUs of a tree. -/

namespace Dg

/-- what line wrapping may do to a text: white space is changed, but no other character; lines are at most `w` characters long; if no word has a hyphen or more than `w` characters, the words stay the same -/
structure Wrapped (w : Nat) (s s' : List Char) : Prop where
  letters : lettersOf s' = lettersOf s
  lines : LinesFit w s'
  words : '-' ∉ s → (∀ ws, Words isUniSpace s ws → ∀ x ∈ ws, x.length ≤ w) → ∀ ws, Words isUniSpace s ws → Words isUniSpace s' ws

theorem lines_fit {w : Nat} {ls : List (List Char)} (h : ∀ l ∈ ls, l.length ≤ w ∧ '\n' ∉ l) : LinesFit w (joinChars ['\n'] ls) := by
  intro pre l post he hl
  have key : ∀ (ls : List (List Char)), (∀ l ∈ ls, l.length ≤ w ∧ '\n' ∉ l) → ∀ pre, joinChars ['\n'] ls = pre ++ l ++ post → l.length ≤ w := by
    intro ls
    induction ls with
    | nil =>
      intro _ pre he
      have := congrArg List.length he
      simp [joinChars] at this
      omega
    | cons x ls ih =>
      intro hls pre he
      cases ls with
      | nil =>
        have := congrArg List.length he
        have hx := (hls x (by simp)).1
        simp [joinChars] at this
        omega
      | cons y ls =>
        rw [joinChars, List.append_assoc, List.singleton_append, List.append_assoc] at he
        have hx := hls x (by simp)
        rcases List.append_eq_append_iff.1 he with ⟨a, h1, h2⟩ | ⟨a, h1, h2⟩
        · -- `pre = x ++ a`: the piece starts after the first line
          cases a with
          | nil =>
            cases l with
            | nil => simp
            | cons c l =>
              simp only [List.nil_append, List.cons_append, List.cons.injEq] at h2
              exact absurd (by rw [← h2.1]; simp) hl
          | cons c a =>
            simp only [List.cons_append, List.cons.injEq] at h2
            refine ih (fun z hz => hls z (List.mem_cons_of_mem _ hz)) a ?_
            rw [h2.2, List.append_assoc]
        · -- `x = pre ++ a`: the piece starts in the first line
          rcases List.append_eq_append_iff.1 h2 with ⟨b, h3, h4⟩ | ⟨b, h3, h4⟩
          · have := congrArg List.length h1
            have := congrArg List.length h3
            rw [List.length_append] at *
            omega
          · cases b with
            | nil =>
              have := congrArg List.length h1
              have := congrArg List.length h3
              rw [List.length_append] at *
              simp at *
              omega
            | cons c b =>
              simp only [List.cons_append, List.cons.injEq] at h4
              exact absurd (by rw [h3, ← h4.1]; simp) hl
  exact key ls h pre he

theorem flatten_flatMap_words {α : Type} (f : List α → List (List α)) : ∀ ls : List (List α), (ls.flatMap f).flatten = ls.flatMap (fun l => (f l).flatten)
  | [] => rfl
  | l :: ls => by rw [List.flatMap_cons, List.flatten_append, flatten_flatMap_words f ls, List.flatMap_cons]

/-- **C79 (one EDU)**.  For every width greater than 0 and every way of splitting texts into chunks, the text of an EDU can be wrapped; no character other than white space is lost, added or moved; no line is longer than the width; and if the
text has no hyphen and no word longer than the width, its words stay the same. -/
theorem c79_leaf (chunk : List Char → List (List Char)) (hc : Chunker chunk) (w : Nat) (hw : 0 < w) (s : List Char) : ∃ s', wrapLeaf chunk w s = .ok s' ∧ Wrapped w s s' := by
  have hn : isUniSpace '\n' = true := by decide
  have h0 := words_prepared s
  have hnl := munge_newline (stripUni (dedent s))
  unfold wrapLeaf
  dsimp only
  rw [if_neg (by omega)]
  refine ⟨_, rfl, ?_⟩
  rw [show (w : Int).toNat = w from by omega]
  generalize mungeWhitespace (stripUni (dedent s)) = t at h0 hnl
  have hne : ∀ c ∈ chunk t, c ≠ [] := fun c h => (hc.piece t c h).1
  refine ⟨?_, ?_, ?_⟩
  · have h1 := letters_wrapLines hw (chunksLen (chunk t) + 1) false (chunk t) hne (by omega)
    rw [hc.all] at h1
    rw [letters_words s, ← h0, ← letters_words t, ← h1]
    rw [letters_words, splitBy_lines hn, flatten_flatMap_words]
    exact congrArg (fun f => List.flatMap f _) (funext fun l => (letters_words l).symm)
  · refine lines_fit ?_
    intro l hl
    refine ⟨wrapLines_len _ _ _ l hl, ?_⟩
    intro hx
    have := wrapLines_chars _ _ _ l hl hx
    rw [hc.all] at this
    exact hnl this
  · intro hh hs ws hws
    have hws' := hs ws hws
    have e := splitBy_of_words hws
    have hok : WrapOk w (chunk t) := by
      refine ⟨hc.hyphen t (words_hyphen hh h0), hc.piece t, ?_⟩
      intro c hcm hsp
      refine hws' c ?_
      rw [← e, ← h0, ← hc.all t, splitBy_chunks (hc.hyphen t (words_hyphen hh h0)) (hc.piece t), List.mem_filter]
      refine ⟨hcm, ?_⟩
      cases hb : blankChunk c with
      | true => exact absurd (blankChunk_iff.1 hb) hsp
      | false => rfl
    have h1 := words_wrapLines hw (chunksLen (chunk t) + 1) false (chunk t) hok (by omega)
    rw [hc.all, h0, e, ← splitBy_lines hn] at h1
    rw [← h1]
    exact splitBy_words _ _

/-- two trees with the same labels and structure whose leaves are related -/
inductive SameTree (R : List Char → List Char → Prop) : PTree → PTree → Prop
  | leaf {s s' : List Char} : R s s' → SameTree R (.leaf s) (.leaf s')
  | node {l : List Char} {ks ks' : List PTree} : List.Forall₂ (SameTree R) ks ks' → SameTree R (.node l ks) (.node l ks')

mutual
theorem wrap_same {f : List Char → Except PyErr (List Char)} {R : List Char → List Char → Prop} (hf : ∀ s, ∃ s', f s = .ok s' ∧ R s s') : ∀ t : PTree, t.Real → ∃ t', t.wrap f = .ok t' ∧ SameTree R t t'
  | .leaf s, _ => by
    obtain ⟨s', h1, h2⟩ := hf s
    exact ⟨.leaf s', by simp only [PTree.wrap, h1, bind, Except.bind, pure, Except.pure], .leaf h2⟩
  | .none, h => by cases h
  | .node l ks, h => by
    have hk : ∀ k ∈ ks, k.Real := by cases h; assumption
    obtain ⟨ks', h1, h2⟩ := wrapAll_same hf ks hk
    exact ⟨.node l ks', by simp only [PTree.wrap, h1, bind, Except.bind, pure, Except.pure], .node h2⟩
theorem wrapAll_same {f : List Char → Except PyErr (List Char)} {R : List Char → List Char → Prop} (hf : ∀ s, ∃ s', f s = .ok s' ∧ R s s') : ∀ ts : List PTree, (∀ t ∈ ts, t.Real) → ∃ ts', PTree.wrapAll f ts = .ok ts' ∧ List.Forall₂ (SameTree R) ts ts'
  | [], _ => ⟨[], rfl, .nil⟩
  | t :: ts, h => by
    obtain ⟨t', h1, h2⟩ := wrap_same hf t (h t (by simp))
    obtain ⟨ts', h3, h4⟩ := wrapAll_same hf ts (fun x hx => h x (List.mem_cons_of_mem _ hx))
    exact ⟨t' :: ts', by simp only [PTree.wrapAll, h1, h3, bind, Except.bind, pure, Except.pure], .cons h2 h4⟩
end

/-- **C79 (trees)**.  Wrapping the lines of a tree (with any positive width) succeeds and keeps its labels and its structure; of the text of each EDU only the white space is changed, as described above. -/
theorem c79_tree_partial (chunk : List Char → List (List Char)) (hc : Chunker chunk) (w : Nat) (hw : 0 < w) (l : List Char) (ks : List PTree) (hr : (PTree.node l ks).Real) :
    ∃ t, wordWrapTree chunk (.node l ks) w = .ok t ∧ SameTree (Wrapped w) (.node l ks) t := by
  unfold wordWrapTree
  rw [if_neg (by omega)]
  exact wrap_same (c79_leaf chunk hc w hw) _ hr

/-- **C79 (off)**.  Width 0, the default, changes nothing. -/
theorem c79_off (chunk : List Char → List (List Char)) (t : PTree) : wordWrapTree chunk t 0 = .ok t := rfl

/-! ### examples -/

/-- white space, and what lies between -/
def runs : List Char → List (List Char)
  | [] => []
  | c :: cs =>
    match runs cs with
    | [] => [[c]]
    | r :: rs => if isUniSpace (r.headD ' ') = isUniSpace c then (c :: r) :: rs else [c] :: r :: rs

theorem runs_spec : ∀ s : List Char, (runs s).flatten = s ∧ (∀ c ∈ runs s, c ≠ [] ∧ (AllSpace c ∨ NoSpace c)) ∧ Alternating (runs s)
  | [] => ⟨rfl, by simp [runs], trivial⟩
  | c :: cs => by
    obtain ⟨h1, h2, h3⟩ := runs_spec cs
    have hsing : AllSpace [c] ∨ NoSpace [c] := by
      cases hc : isUniSpace c
      · right; intro x hx; rw [List.mem_singleton.1 hx]; exact hc
      · left; intro x hx; rw [List.mem_singleton.1 hx]; exact hc
    unfold runs
    cases hr : runs cs with
    | nil =>
      rw [hr] at h1
      refine ⟨by simpa using h1, ?_, trivial⟩
      intro d hd
      obtain rfl := List.mem_singleton.1 hd
      exact ⟨by simp, hsing⟩
    | cons r rs =>
      rw [hr] at h1 h2 h3
      dsimp only
      have hrp := h2 r (by simp)
      have hhead : ∀ x, r.head? = some x → (AllSpace r ↔ isUniSpace x = true) ∧ (NoSpace r ↔ isUniSpace x = false) := by
        intro x hx
        have hm := List.mem_of_mem_head? hx
        constructor
        · constructor
          · exact fun h => h x hm
          · intro h
            rcases hrp.2 with e | e
            · exact e
            · rw [e x hm] at h; cases h
        · constructor
          · exact fun h => h x hm
          · intro h
            rcases hrp.2 with e | e
            · rw [e x hm] at h; cases h
            · exact e
      cases r with
      | nil => exact absurd rfl hrp.1
      | cons x r =>
        have hx := hhead x rfl
        by_cases he : isUniSpace x = isUniSpace c
        · rw [show (if isUniSpace ((x :: r).headD ' ') = isUniSpace c then (c :: x :: r) :: rs else [c] :: (x :: r) :: rs) = (c :: x :: r) :: rs from if_pos he]
          have hsp : AllSpace (c :: x :: r) ∨ NoSpace (c :: x :: r) := by
            rcases hrp.2 with e | e
            · left
              intro y hy
              rcases List.mem_cons.1 hy with rfl | hy
              · rw [← he]; exact hx.1.1 e
              · exact e y hy
            · right
              intro y hy
              rcases List.mem_cons.1 hy with rfl | hy
              · rw [← he]; exact hx.2.1 e
              · exact e y hy
          refine ⟨by simp only [List.flatten_cons, List.cons_append] at h1 ⊢; rw [h1], ?_, ?_⟩
          · intro d hd
            rcases List.mem_cons.1 hd with rfl | hd
            · exact ⟨by simp, hsp⟩
            · exact h2 d (List.mem_cons_of_mem _ hd)
          · cases rs with
            | nil => trivial
            | cons y rs =>
              refine ⟨?_, h3.2⟩
              rcases h3.1 with e | e
              · left
                intro z hz
                rcases List.mem_cons.1 hz with rfl | hz
                · rw [← he]; exact hx.1.1 e
                · exact e z hz
              · exact .inr e
        · rw [show (if isUniSpace ((x :: r).headD ' ') = isUniSpace c then (c :: x :: r) :: rs else [c] :: (x :: r) :: rs) = [c] :: (x :: r) :: rs from if_neg he]
          refine ⟨by simp only [List.flatten_cons, List.cons_append, List.nil_append] at h1 ⊢; rw [h1], ?_, ?_⟩
          · intro d hd
            rcases List.mem_cons.1 hd with rfl | hd
            · exact ⟨by simp, hsing⟩
            · exact h2 d hd
          · refine ⟨?_, h3⟩
            rcases hrp.2 with e | e
            · exact .inr e
            · left
              intro z hz
              rw [List.mem_singleton.1 hz]
              have := hx.2.1 e
              rw [this] at he
              cases hcc : isUniSpace c
              · exact absurd hcc.symm he
              · rfl

theorem runs_chunker : Chunker runs := ⟨fun s => (runs_spec s).1, fun s => (runs_spec s).2.1, fun s _ => (runs_spec s).2.2⟩

example : wrapLeaf runs 9 "  they accepted\n the\toffer .".toList = .ok "they\naccepted\nthe\noffer .".toList := by
  decide +kernel

example : ∃ t, wordWrapTree runs (.node "Contrast".toList [.node "S".toList [.leaf "Although they did n't like it ,".toList], .node "N".toList [.leaf "they accepted the offer .".toList]]) (12 : Nat) = .ok t ∧
    SameTree (Wrapped 12) (.node "Contrast".toList [.node "S".toList [.leaf "Although they did n't like it ,".toList], .node "N".toList [.leaf "they accepted the offer .".toList]]) t :=
  c79_tree_partial runs runs_chunker 12 (by decide) _ _ (by
    refine .node ?_
    intro k hk
    simp only [List.mem_cons, List.not_mem_nil, or_false] at hk
    rcases hk with rfl | rfl <;> exact .node (fun k hk => by obtain rfl := List.mem_singleton.1 hk; exact .leaf))

/-- a word that is longer than the width becomes two words -/
theorem c79_fails_long_word : wrapLeaf runs 6 "they accepted".toList = .ok "they a\nccepte\nd".toList := by decide +kernel

/-- a way of splitting texts that breaks words behind hyphens, as textwrap does -/
def hyphenRuns (s : List Char) : List (List Char) := (runs s).flatMap (fun c =>
  let a := c.takeWhile (· ≠ '-')
  let b := c.dropWhile (· ≠ '-')
  if b.length ≤ 1 then [c] else [a ++ ['-'], b.drop 1])

/-- a word with a hyphen becomes two words -/
theorem c79_fails_hyphen : wrapLeaf hyphenRuns 8 "eine E-Mail".toList = .ok "eine E-\nMail".toList := by decide +kernel

/-- a negative width is not refused before the text is wrapped -/
theorem c79_fails_negative (chunk : List Char → List (List Char)) (l s : List Char) : wordWrapTree chunk (.node l [.leaf s]) (-1) = .error .value := rfl

end Dg
