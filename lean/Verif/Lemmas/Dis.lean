import Verif.Lemmas.Rst
import Verif.Spec.Dis
import Mathlib.Data.List.Nodup

/-! Leaf positions, words and marks. -/

namespace Dg

theorem PTree.leafPositionsAll_head {i : Nat} {ks : List PTree} {p : List Nat} (h : p ∈ leafPositionsAll i ks) : ∃ j r, p = j :: r ∧ i ≤ j := by
  induction ks generalizing i with
  | nil => simp [leafPositionsAll] at h
  | cons k ks ih =>
    rw [leafPositionsAll, List.mem_append] at h
    rcases h with h | h
    · obtain ⟨r, _, rfl⟩ := List.mem_map.1 h
      exact ⟨i, r, rfl, Nat.le_refl _⟩
    · obtain ⟨j, r, rfl, hj⟩ := ih h
      exact ⟨j, r, rfl, by omega⟩

theorem PTree.leafPositionsAll_nodup (i : Nat) (ks : List PTree) (h : ∀ k ∈ ks, k.leafPositions.Nodup) : (leafPositionsAll i ks).Nodup := by
  induction ks generalizing i with
  | nil => simp [leafPositionsAll]
  | cons k ks ih =>
    rw [leafPositionsAll, List.nodup_append]
    refine ⟨?_, ih _ (fun k hk => h k (by simp [hk])), ?_⟩
    · exact (h k (by simp)).map (fun a b hab => by simpa using hab)
    · intro a ha b hb
      obtain ⟨r, _, rfl⟩ := List.mem_map.1 ha
      obtain ⟨j, r', rfl, hj⟩ := leafPositionsAll_head hb
      intro he
      simp at he
      omega

theorem PTree.leafPositions_nodup (t : PTree) : t.leafPositions.Nodup := by
  induction t using PTree.ind with
  | h1 s => simp [leafPositions]
  | h0 => simp [leafPositions]
  | h2 a kids ih => rw [leafPositions]; exact leafPositionsAll_nodup 0 kids ih

/-- as many leaf positions as EDUs -/
theorem Rst.leafPositions_length (t : Rst) : t.tree.leafPositions.length = t.edus.length := by
  induction t using Rst.ind with
  | h1 s => rfl
  | h2 a kids ih =>
    rw [tree, PTree.leafPositions, edus]
    have key : ∀ i, (PTree.leafPositionsAll i (treeAll kids)).length = (edusAll kids).length := by
      clear a
      induction kids with
      | nil => intro i; rfl
      | cons k ks ihk =>
        intro i
        obtain ⟨n, t⟩ := k
        have h1 := ih (n, t) (by simp)
        have h2 := ihk (fun k hk => ih k (by simp [hk])) (i + 1)
        simp only [treeAll, edusAll, PTree.leafPositionsAll, List.length_append, List.length_map, PTree.leafPositions, List.append_nil, h1, h2]
    exact key 0

theorem idxOf_block {α : Type} [BEq α] [LawfulBEq α] (A B : List α) (x : α) (h : x ∉ A) : (A ++ x :: B).idxOf x = A.length := by
  rw [List.idxOf_append_of_notMem h]
  simp

/-- the span of a subtree whose leaves are the block behind `A` -/
theorem makeSpan_block {all A B : List (List Nat)} {pos : List Nat} {t : PTree} (hnd : all.Nodup)
    (hall : all = A ++ t.leafPositions.map (fun p => pos ++ p) ++ B) (hne : t.leafPositions ≠ []) :
    makeSpan all pos t = .ok (Rst.disRange (A.length + 1) t.leafPositions.length) := by
  unfold makeSpan
  generalize hq : t.leafPositions.map (fun p => pos ++ p) = q at hall
  have hlen : t.leafPositions.length = q.length := by rw [← hq]; simp
  rw [hlen]
  have hqne : q ≠ [] := by rintro rfl; simp at hq; exact hne hq
  match q, hqne with
  | [p], _ =>
    have hp : p ∈ all := by rw [hall]; simp
    have hi : all.idxOf p = A.length := by
      rw [hall, List.append_assoc]
      refine idxOf_block A B p ?_
      rw [hall, List.append_assoc] at hnd
      exact fun h => (List.nodup_append.1 hnd).2.2 p h p (by simp) rfl
    simp only [positionIndex, if_pos hp, hi]
    rfl
  | p :: p2 :: ps, _ =>
    have hlast : ∃ ini l, p :: p2 :: ps = p :: (ini ++ [l]) ∧ (p2 :: ps).getLast?.getD [] = l := by
      refine ⟨(p2 :: ps).dropLast, (p2 :: ps).getLast (by simp), ?_, ?_⟩
      · rw [List.dropLast_append_getLast]
      · rw [List.getLast?_eq_some_getLast (by simp)]; rfl
    obtain ⟨ini, l, he, hl⟩ := hlast
    have hps : p2 :: ps = ini ++ [l] := by simpa using he
    have hp : p ∈ all := by rw [hall]; simp
    have hpl : l ∈ all := by rw [hall, he]; simp
    have hi : all.idxOf p = A.length := by
      rw [hall, List.append_assoc]
      refine idxOf_block A _ p ?_
      rw [hall, List.append_assoc] at hnd
      exact fun h => (List.nodup_append.1 hnd).2.2 p h p (by simp) rfl
    have hj : all.idxOf l = A.length + (ini.length + 1) := by
      have e : all = (A ++ p :: ini) ++ l :: B := by rw [hall, he]; simp
      rw [e, idxOf_block]
      · simp
      · rw [e] at hnd
        exact fun h => (List.nodup_append.1 hnd).2.2 l h l (by simp) rfl
    simp only [positionIndex, if_pos hp, hi, hl, if_pos hpl, hj]
    have hlen2 : (p :: p2 :: ps).length = ini.length + 2 := by rw [he]; simp
    rw [hlen2]
    simp only [Rst.disRange]
    rw [if_neg (by omega)]
    have : A.length + 1 + (ini.length + 2) - 1 = A.length + (ini.length + 1) + 1 := by omega
    rw [this]
    rfl

/-! ### Words -/

theorem splitWsAux_mem {cur s w : List Char} (hc : ∀ c ∈ cur, isUniSpace c = false) (h : w ∈ splitWsAux cur s) : w ≠ [] ∧ ∀ c ∈ w, isUniSpace c = false := by
  induction s generalizing cur with
  | nil =>
    rw [splitWsAux] at h
    split at h
    · cases h
    · simp at h; subst h; rename_i hne; exact ⟨by simpa using hne, fun c h => hc c (List.mem_reverse.1 h)⟩
  | cons a s ih =>
    rw [splitWsAux] at h
    split at h
    · split at h
      · exact ih (by simp) h
      · rcases List.mem_cons.1 h with rfl | h
        · rename_i hne; exact ⟨by simpa using hne, fun c h => hc c (List.mem_reverse.1 h)⟩
        · exact ih (by simp) h
    · rename_i ha
      exact ih (by intro c hcm; rcases List.mem_cons.1 hcm with rfl | hcm; simpa using ha; exact hc c hcm) h

theorem splitWs_mem {s w : List Char} (h : w ∈ splitWs s) : w ≠ [] ∧ ∀ c ∈ w, isUniSpace c = false := splitWsAux_mem (by simp) h

theorem splitWsAux_infix {cur s w : List Char} (h : w ∈ splitWsAux cur s) : w <:+: cur.reverse ++ s := by
  induction s generalizing cur with
  | nil =>
    rw [splitWsAux] at h
    split at h
    · cases h
    · simp at h; subst h; simp
  | cons a s ih =>
    rw [splitWsAux] at h
    have hsuf : s <:+: cur.reverse ++ a :: s := ⟨cur.reverse ++ [a], [], by simp⟩
    split at h
    · split at h
      · exact (by simpa using ih h : w <:+: s).trans hsuf
      · rcases List.mem_cons.1 h with rfl | h
        · exact ⟨[], a :: s, by simp⟩
        · exact (by simpa using ih h : w <:+: s).trans hsuf
    · simpa using ih h

theorem splitWs_infix {s w : List Char} (h : w ∈ splitWs s) : w <:+: s := by simpa using splitWsAux_infix h

theorem splitWsAux_ne_nil {cur s : List Char} (h : cur ≠ [] ∨ ∃ c ∈ s, isUniSpace c = false) : splitWsAux cur s ≠ [] := by
  induction s generalizing cur with
  | nil =>
    rcases h with h | ⟨c, hc, _⟩
    · simp [splitWsAux, h]
    · cases hc
  | cons a s ih =>
    rw [splitWsAux]
    split
    · rename_i ha
      split
      · rename_i hcur
        refine ih ?_
        rcases h with h | ⟨c, hc, hcs⟩
        · exact absurd hcur h
        · rcases List.mem_cons.1 hc with rfl | hc
          · rw [ha] at hcs; cases hcs
          · exact .inr ⟨c, hc, hcs⟩
      · simp
    · exact ih (.inl (by simp))

theorem splitWs_ne_nil {s : List Char} (h : ∃ c ∈ s, isUniSpace c = false) : splitWs s ≠ [] := splitWsAux_ne_nil (.inr h)

/-- the loop that marks the last word -/
theorem closeLast_eq (w : List Char) (ws : List (List Char)) :
    Rst.disWords.closeLast w ws = (w :: ws).dropLast ++ [((w :: ws).getLast?).getD [] ++ ['_', '!']] := by
  induction ws generalizing w with
  | nil => rfl
  | cons v vs ih => rw [Rst.disWords.closeLast, ih]; simp

theorem makeEdu_eq {s : List Char} (h : ∃ c ∈ s, isUniSpace c = false) :
    makeEdu s = .ok (.node ['t', 'e', 'x', 't'] ((Rst.disWords (splitWs s)).map PTree.leaf)) := by
  have hne := splitWs_ne_nil h
  unfold makeEdu
  split
  · rename_i he; exact absurd he hne
  · rename_i tok toks he
    simp only [he, Rst.disWords, closeLast_eq]
    rfl

theorem joinChars_closeLast (w : List Char) (ws : List (List Char)) :
    joinChars [' '] (Rst.disWords.closeLast w ws) = joinChars [' '] (w :: ws) ++ ['_', '!'] := by
  induction ws generalizing w with
  | nil => rfl
  | cons v vs ih =>
    rw [Rst.disWords.closeLast]
    cases vs with
    | nil => simp [Rst.disWords.closeLast, joinChars]
    | cons u us =>
      have := ih v
      rw [Rst.disWords.closeLast] at this ⊢
      rw [joinChars, this]
      simp [joinChars]

theorem joinChars_disWords {ws : List (List Char)} (h : ws ≠ []) : joinChars [' '] (Rst.disWords ws) = ['_', '!'] ++ joinChars [' '] ws ++ ['_', '!'] := by
  cases ws with
  | nil => exact absurd rfl h
  | cons w ws =>
    rw [Rst.disWords, joinChars_closeLast]
    cases ws with
    | nil => simp [joinChars]
    | cons v vs => simp [joinChars]

/-! ### Marks -/

/-- the closing mark behind a text without line breaks and marks -/
theorem closingMark_of {s : List Char} (r : List Char) (hnl : '\n' ∉ s) (hm : ¬ ['_', '!'] <:+: s) : closingMark (s ++ '_' :: '!' :: r) = some (s, r) := by
  induction s with
  | nil => rfl
  | cons c s ih =>
    have hm' : ¬ ['_', '!'] <:+: s := fun h => hm (h.trans (List.infix_cons (List.infix_refl _)))
    have hc : c ≠ '\n' := by rintro rfl; simp at hnl
    rw [List.cons_append, closingMark]
    · rw [ih (fun h => hnl (by simp [h])) hm']; rfl
    · exact hc
    · intro r' hc2 he
      subst hc2
      cases s with
      | nil => simp at he
      | cons d s =>
        simp at he
        obtain ⟨rfl, _⟩ := he
        exact hm ⟨[], s, rfl⟩

theorem removeMarks_enclosed {s : List Char} (hnl : '\n' ∉ s) (hm : ¬ ['_', '!'] <:+: s) : removeMarks (['_', '!'] ++ s ++ ['_', '!']) = s := by
  have h : ['_', '!'] ++ s ++ ['_', '!'] = '_' :: '!' :: (s ++ '_' :: '!' :: []) := by simp
  have hd : ('!' :: (s ++ ['_', '!'])).drop 1 = s ++ '_' :: '!' :: [] := rfl
  rw [h, removeMarks, if_pos ⟨rfl, rfl⟩]
  split
  · rename_i inner rest he
    rw [hd, closingMark_of [] hnl hm] at he
    cases he
    rw [removeMarks]; simp
  · rename_i he
    rw [hd, closingMark_of [] hnl hm] at he
    cases he

/-- a mark in joined words is a mark in a word -/
theorem mark_joinChars {ws : List (List Char)} (h : ['_', '!'] <:+: joinChars [' '] ws) : ∃ w ∈ ws, ['_', '!'] <:+: w := by
  induction ws with
  | nil => rw [joinChars] at h; simp at h
  | cons w ws ih =>
    cases ws with
    | nil => exact ⟨w, by simp, h⟩
    | cons v vs =>
      rw [joinChars] at h
      obtain ⟨a, b, he⟩ := h
      -- split at the blank
      have he : a ++ ('_' :: '!' :: b) = w ++ (' ' :: joinChars [' '] (v :: vs)) := by simpa using he
      rw [List.append_eq_append_iff] at he
      rcases he with ⟨c, rfl, h2⟩ | ⟨c, rfl, h2⟩
      · -- the mark begins in `w` (or right behind)
        match c, h2 with
        | [], h2 => simp at h2
        | ['_'], h2 => simp at h2
        | x :: y :: c, h2 =>
          simp at h2
          obtain ⟨rfl, rfl, rfl⟩ := h2
          exact ⟨a ++ '_' :: '!' :: c, by simp, a, c, by simp⟩
      · match c, h2 with
        | [], h2 => simp at h2
        | x :: c, h2 =>
          simp at h2
          obtain ⟨rfl, h2⟩ := h2
          obtain ⟨u, hu, hm⟩ := ih ⟨c, b, by simp [← h2]⟩
          exact ⟨u, by simp [List.mem_cons.1 hu], hm⟩

theorem newline_joinChars {ws : List (List Char)} (h : ∀ w ∈ ws, '\n' ∉ w) : '\n' ∉ joinChars [' '] ws := by
  induction ws with
  | nil => simp [joinChars]
  | cons w ws ih =>
    cases ws with
    | nil => exact h w (by simp)
    | cons v vs =>
      rw [joinChars]
      have h1 := h w (by simp)
      have h2 := ih (fun w hw => h w (by simp [List.mem_cons.1 hw]))
      simp [h1, h2]

theorem PTree.leavesAll_leaf (ws : List (List Char)) : leavesAll (ws.map PTree.leaf) = ws := by
  induction ws with
  | nil => rfl
  | cons w ws ih => simp [leavesAll, leaves, ih]

/-- the text that is read back for an EDU -/
def readEdu (s : List Char) : List Char := removeMarks (['_', '!'] ++ joinChars [' '] (splitWs s) ++ ['_', '!'])

theorem getEduText_words {s : List Char} (h : ∃ c ∈ s, isUniSpace c = false) :
    getEduText (.node ['t', 'e', 'x', 't'] ((Rst.disWords (splitWs s)).map PTree.leaf)) = .ok (readEdu s) := by
  rw [getEduText, if_pos rfl, PTree.leavesAll_leaf, joinChars_disWords (splitWs_ne_nil h), readEdu]

/-- reading the words of an EDU gives back its words, separated by blanks -/
theorem readEdu_eq {s : List Char} (hm : ¬ ['_', '!'] <:+: s) : readEdu s = joinChars [' '] (splitWs s) := by
  rw [readEdu, removeMarks_enclosed]
  · refine newline_joinChars (fun w hw hn => ?_)
    have := (splitWs_mem hw).2 _ hn
    revert this; decide
  · intro hj
    obtain ⟨w, hw, hwm⟩ := mark_joinChars hj
    exact hm (hwm.trans (splitWs_infix hw))

theorem Rst.mapEdusAll_eq (f : List Char → List Char) (ks : List (Nuc × Rst)) : mapEdusAll f ks = ks.map (fun k => (k.1, mapEdus f k.2)) := by
  induction ks with
  | nil => rfl
  | cons k ks ih => obtain ⟨n, t⟩ := k; rw [mapEdusAll, ih]; rfl

theorem Rst.mapEdus_congr {f g : List Char → List Char} {t : Rst} (h : ∀ s, Part (.edu s) t → f s = g s) : mapEdus f t = mapEdus g t := by
  induction t using Rst.ind with
  | h1 s => rw [mapEdus, mapEdus, h s (.refl _)]
  | h2 a kids ih =>
    rw [mapEdus, mapEdus, mapEdusAll_eq, mapEdusAll_eq]
    congr 1
    apply List.map_congr_left
    intro k hk
    rw [ih k hk (fun s hs => h s (.kid (n := k.1) hk hs))]

end Dg
