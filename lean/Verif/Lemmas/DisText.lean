import Verif.Spec.DisText
import Verif.Lemmas.Dis

namespace Dg

theorem uni_of_re {c : Char} (h : isReSpace c = true) : isUniSpace c = true := by
  unfold isReSpace at h
  unfold isUniSpace
  simp only [decide_eq_true_eq] at h ⊢
  omega

theorem not_re {c : Char} (h : isUniSpace c = false) : isReSpace c = false := by
  cases hc : isReSpace c with
  | false => rfl
  | true => rw [uni_of_re hc] at h; cases h

theorem Blank.re {s : List Char} (h : Blank s) {c : Char} (hc : c ∈ s) : isReSpace c = true :=
  (show ∀ c ∈ [' ', '\t', '\n', '\x0b', '\x0c', '\r'], isReSpace c = true by decide) c (h c hc)

/-- what may follow a word -/
def Follows (rest : List Char) : Prop := ∀ c, rest.head? = some c → isReSpace c = true ∨ c = '(' ∨ c = ')'

theorem follows_cons {c : Char} {r : List Char} (h : isReSpace c = true ∨ c = '(' ∨ c = ')') : Follows (c :: r) := by
  intro x hx
  cases hx
  exact h

theorem follows_blank {sep r : List Char} (h : sep ≠ []) (hb : Blank sep) : Follows (sep ++ r) := by
  cases sep with
  | nil => exact absurd rfl h
  | cons c s => exact follows_cons (.inl (hb.re (.head _)))

theorem follows_blank' {sep r : List Char} (hb : Blank sep) (hr : Follows r) : Follows (sep ++ r) := by
  cases sep with
  | nil => exact hr
  | cons c s => exact follows_cons (.inl (hb.re (.head _)))

theorem follows_close (r : List Char) : Follows (')' :: r) := follows_cons (.inr (.inr rfl))

theorem follows_layouts {E : List (List Char) → List Char → Prop} {ks : List PTree} {body : List Char} (h : DisLayouts E ks body) {r : List Char} (hr : Follows r) : Follows (body ++ r) := by
  cases h with
  | nil => exact hr
  | cons h1 h2 _ _ =>
    rw [List.append_assoc]
    exact follows_blank h1 h2

theorem follows_ne {rest : List Char} (h : Follows rest) {c : Char} (hc : isReSpace c = false ∧ c ≠ '(' ∧ c ≠ ')') : rest.head? ≠ some c := by
  intro hx
  rcases h c hx with h | h | h
  · rw [hc.1] at h; cases h
  · exact hc.2.1 h
  · exact hc.2.2 h

/-- a function that changes only EDUs -/
structure Passes (F : List Char → List Char) : Prop where
  nil : F [] = []
  blank : ∀ c, isReSpace c = true ∨ c = '(' → ∀ rest, F (c :: rest) = c :: F rest
  close : ∀ rest, Follows rest → F (')' :: rest) = ')' :: F rest
  word : ∀ w, DisWord w → ∀ rest, Follows rest → F (w ++ rest) = w ++ F rest

theorem Passes.blanks {F : List Char → List Char} (h : Passes F) {s : List Char} (hb : Blank s) (rest : List Char) : F (s ++ rest) = s ++ F rest := by
  induction s with
  | nil => rfl
  | cons c s ih =>
    rw [List.cons_append, h.blank c (.inl (hb.re (.head _))), ih (fun x hx => hb x (.tail _ hx))]
    rfl

theorem text_word : DisWord ['t', 'e', 'x', 't'] := ⟨by simp, by decide, by decide⟩

theorem mapLeavesAll_eq (f : List Char → List Char) (ks : List PTree) : PTree.mapLeavesAll f ks = ks.map (PTree.mapLeaves f) := by
  induction ks with
  | nil => rfl
  | cons k ks ih => rw [PTree.mapLeavesAll, ih]; rfl

mutual
/-- such a function changes the text of a tree to the text of the tree with changed EDUs -/
theorem layout_maps {F : List Char → List Char} (hF : Passes F) {E E' : List (List Char) → List Char → Prop} {g : List Char → List Char} (hg : ∀ w, DisWord w → g w = w)
    (hE : ∀ ws s, EduWords ws → E (Rst.disWords ws) s → EduWords (ws.map g) ∧ Rst.disWords (ws.map g) = (Rst.disWords ws).map g ∧
      ∃ s', E' ((Rst.disWords ws).map g) s' ∧ ∀ rest, F (s ++ rest) = s' ++ F rest) :
    ∀ {t : PTree} {s : List Char}, DisLayout E t s → ∃ s', DisLayout E' (t.mapLeaves g) s' ∧ ∀ rest, Follows rest → F (s ++ rest) = s' ++ F rest
  | _, _, .leaf h => ⟨_, by rw [PTree.mapLeaves, hg _ h]; exact .leaf h, fun rest hr => hF.word _ h rest hr⟩
  | _, _, .text (ws := ws) (pre := pre) (sep := sep) (s := s) (post := post) h1 h2 h3 h4 h5 h6 => by
    obtain ⟨k1, k2, s', k3, k4⟩ := hE ws s h1 h2
    have := DisLayout.text (edu := E') k1 (by rw [k2]; exact k3) h3 h4 h5 h6
    refine ⟨'(' :: (pre ++ (['t', 'e', 'x', 't'] ++ (sep ++ (s' ++ (post ++ [')']))))), ?_, ?_⟩
    · rw [PTree.mapLeaves, mapLeavesAll_eq, List.map_map]
      rw [k2, List.map_map] at this
      exact this
    · intro rest hr
      simp only [List.cons_append, List.append_assoc, List.nil_append]
      rw [hF.blank _ (.inr rfl), hF.blanks h3]
      have e := hF.word _ text_word (sep ++ (s ++ (post ++ ')' :: rest))) (follows_blank h4 h5)
      simp only [List.cons_append, List.nil_append] at e
      rw [e, hF.blanks h5, k4, hF.blanks h6, hF.close _ hr]
  | _, _, .node (l := l) (pre := pre) (body := body) (post := post) h1 h2 h3 h4 => by
    obtain ⟨b', k1, k2⟩ := layouts_map hF hg hE h3
    refine ⟨'(' :: (pre ++ (l ++ (b' ++ (post ++ [')'])))), ?_, ?_⟩
    · rw [PTree.mapLeaves]
      exact .node h1 h2 k1 h4
    · intro rest hr
      simp only [List.cons_append, List.append_assoc, List.nil_append]
      rw [hF.blank _ (.inr rfl), hF.blanks h2, hF.word _ h1 _ (follows_layouts h3 (follows_blank' h4 (follows_close _))), k2 _ (follows_blank' h4 (follows_close _)), hF.blanks h4, hF.close _ hr]
theorem layouts_map {F : List Char → List Char} (hF : Passes F) {E E' : List (List Char) → List Char → Prop} {g : List Char → List Char} (hg : ∀ w, DisWord w → g w = w)
    (hE : ∀ ws s, EduWords ws → E (Rst.disWords ws) s → EduWords (ws.map g) ∧ Rst.disWords (ws.map g) = (Rst.disWords ws).map g ∧
      ∃ s', E' ((Rst.disWords ws).map g) s' ∧ ∀ rest, F (s ++ rest) = s' ++ F rest) :
    ∀ {ks : List PTree} {s : List Char}, DisLayouts E ks s → ∃ s', DisLayouts E' (PTree.mapLeavesAll g ks) s' ∧ ∀ rest, Follows rest → F (s ++ rest) = s' ++ F rest
  | _, _, .nil => ⟨[], .nil, fun _ _ => rfl⟩
  | _, _, .cons h1 h2 h3 h4 => by
    obtain ⟨s', k1, k2⟩ := layout_maps hF hg hE h3
    obtain ⟨b', k3, k4⟩ := layouts_map hF hg hE h4
    refine ⟨_, .cons h1 h2 k1 k3, fun rest hr => ?_⟩
    clear hE
    simp only [List.append_assoc]
    rw [hF.blanks h2, k2 _ (follows_layouts h4 hr), k4 _ hr]
end

theorem mapLeaves_id_aux (f : List Char → List Char) : ∀ t : PTree, (∀ w ∈ t.leaves, f w = w) → t.mapLeaves f = t
  | .leaf s, h => by rw [PTree.mapLeaves, h s (by simp [PTree.leaves])]
  | .none, _ => rfl
  | .node l ks, h => by
    rw [PTree.mapLeaves, mapLeavesAll_eq]
    congr 1
    have : ∀ ks' : List PTree, (∀ k ∈ ks', k ∈ ks) → (∀ w ∈ PTree.leavesAll ks', f w = w) → ks'.map (PTree.mapLeaves f) = ks' := by
      intro ks'
      induction ks' with
      | nil => intro _ _; rfl
      | cons k ks' ih =>
        intro hs hw
        have hk : k ∈ ks := hs k (.head _)
        rw [List.map_cons, mapLeaves_id_aux f k (fun w hx => hw w (by simp [PTree.leavesAll, hx])), ih (fun k hk => hs k (.tail _ hk)) (fun w hx => hw w (by simp [PTree.leavesAll, hx]))]
    exact this ks (fun _ h => h) (fun w hw => h w (by simpa [PTree.leaves] using hw))
termination_by t => sizeOf t
decreasing_by
  have := List.sizeOf_lt_of_mem hk
  simp
  omega

end Dg
