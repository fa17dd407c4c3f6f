import Verif.Lemmas.ConanoWords
import Verif.Lemmas.ScriptTree
import Verif.Props.C20

/-! The elements of a Conano document as parts of the text. -/

namespace Dg
open Dict
namespace DG

/-- node IDs of the elements -/
def CStep.id? : CStep → Option String
  | .elem _ id _ => some id
  | _ => none

/-- node IDs of the elements -/
def idsOf (s : List CStep) : List String := s.filterMap CStep.id?

theorem idsOf_append (a b : List CStep) : idsOf (a ++ b) = idsOf a ++ idsOf b := List.filterMap_append

theorem idsOf_map (p : NodeId) (ws : List (List Char)) : idsOf (ws.map (CStep.word p)) = [] := by
  unfold idsOf
  rw [List.filterMap_eq_nil_iff]
  intro x hx
  obtain ⟨_, _, rfl⟩ := List.mem_map.1 hx
  rfl

theorem mem_idsOf {s : List CStep} {id : String} : id ∈ idsOf s ↔ ∃ p ls, .elem p id ls ∈ s := by
  unfold idsOf
  rw [List.mem_filterMap]
  constructor
  · rintro ⟨x, hx, h⟩
    cases x with
    | elem p i ls =>
      obtain rfl := Option.some.inj h
      exact ⟨p, ls, hx⟩
    | word => cases h
  · rintro ⟨p, ls, h⟩
    exact ⟨_, h, rfl⟩

/-- parents are seen before -/
def Earlier : List NodeId → List CStep → Prop
  | _, [] => True
  | seen, .elem p id _ :: s => p ∈ seen ∧ Earlier (.str id :: seen) s
  | seen, .word p _ :: s => p ∈ seen ∧ Earlier seen s

theorem Earlier.mono : ∀ {s : List CStep} {a b : List NodeId}, (∀ x ∈ a, x ∈ b) → Earlier a s → Earlier b s
  | [], _, _, _, _ => trivial
  | .elem p id ls :: s, a, b, h, he => ⟨h p he.1, he.2.mono (fun x hx => by rcases List.mem_cons.1 hx with rfl | hx; exact List.mem_cons_self; exact List.mem_cons_of_mem _ (h x hx))⟩
  | .word p w :: s, a, b, h, he => ⟨h p he.1, he.2.mono h⟩

theorem Earlier.append : ∀ {s s' : List CStep} {a : List NodeId}, Earlier a s → Earlier a s' → Earlier a (s ++ s')
  | [], _, _, _, h => h
  | .elem _ _ _ :: _, _, _, h, h' => ⟨h.1, h.2.append (h'.mono (fun _ hx => List.mem_cons_of_mem _ hx))⟩
  | .word _ _ :: _, _, _, h, h' => ⟨h.1, h.2.append h'⟩

theorem earlier_words {p : NodeId} {a : List NodeId} (h : p ∈ a) : ∀ ws : List (List Char), Earlier a (ws.map (CStep.word p))
  | [] => trivial
  | _ :: ws => ⟨h, earlier_words h ws⟩

mutual
theorem earlier_steps {p : NodeId} {a : List NodeId} (h : p ∈ a) : ∀ t : CTree, Earlier a (t.steps p)
  | .node id ls text kids tail => by
    unfold CTree.steps
    refine ⟨h, ((earlier_words List.mem_cons_self _).append (earlier_stepsAll List.mem_cons_self kids)).append (earlier_words (List.mem_cons_of_mem _ h) _)⟩
theorem earlier_stepsAll {p : NodeId} {a : List NodeId} (h : p ∈ a) : ∀ ts : List CTree, Earlier a (CTree.stepsAll p ts)
  | [] => by unfold CTree.stepsAll; trivial
  | t :: ts => by
    unfold CTree.stepsAll
    exact (earlier_steps h t).append (earlier_stepsAll h ts)
end

theorem wordsOf_elem (p : NodeId) (id : String) (ls : List String) (s : List CStep) : wordsOf (.elem p id ls :: s) = wordsOf s := rfl

theorem map_snd (q : NodeId) (ws : List (List Char)) : (ws.map (fun w => (q, w))).map Prod.snd = ws := by
  rw [List.map_map]; exact List.map_id ws

mutual
theorem words_steps (p : NodeId) : ∀ t : CTree, (wordsOf (t.steps p)).map Prod.snd = t.words
  | .node id ls text kids tail => by
    unfold CTree.steps CTree.words
    rw [wordsOf_elem, wordsOf_append, wordsOf_append, wordsOf_map, wordsOf_map, List.map_append, List.map_append, map_snd, map_snd, words_stepsAll _ kids]
theorem words_stepsAll (p : NodeId) : ∀ ts : List CTree, (wordsOf (CTree.stepsAll p ts)).map Prod.snd = CTree.wordsAll ts
  | [] => rfl
  | t :: ts => by
    unfold CTree.stepsAll CTree.wordsAll
    rw [wordsOf_append, List.map_append, words_steps p t, words_stepsAll p ts]
end

theorem wordsOf_length (p : NodeId) (t : CTree) : (wordsOf (t.steps p)).length = t.words.length := by
  rw [← words_steps p t, List.length_map]

mutual
theorem elements_ids (p : NodeId) : ∀ (t : CTree) (n : Nat), (t.elements n).map CPart.id = idsOf (t.steps p)
  | .node id ls text kids tail, n => by
    unfold CTree.elements CTree.steps
    rw [show idsOf (CStep.elem p id ls :: ((splitWs text).map (CStep.word (.str id)) ++ CTree.stepsAll (.str id) kids ++ (splitWs tail).map (CStep.word p))) =
      id :: idsOf ((splitWs text).map (CStep.word (.str id)) ++ CTree.stepsAll (.str id) kids ++ (splitWs tail).map (CStep.word p)) from rfl,
      idsOf_append, idsOf_append, idsOf_map, idsOf_map, List.map_cons, elementsAll_ids (.str id) kids, List.nil_append, List.append_nil]
theorem elementsAll_ids (p : NodeId) : ∀ (ts : List CTree) (n : Nat), (CTree.elementsAll n ts).map CPart.id = idsOf (CTree.stepsAll p ts)
  | [], n => rfl
  | t :: ts, n => by
    unfold CTree.elementsAll CTree.stepsAll
    rw [List.map_append, elements_ids p t, elementsAll_ids p ts, idsOf_append]
end

/-- the element is the part `inner` of the document, and the rest of the document does not refer to it -/
structure PartOf (p : NodeId) (n : Nat) (s : List CStep) (e : CPart) (pre : List CStep) (q : NodeId) (inner post : List CStep) : Prop where
  steps : s = pre ++ .elem q e.id e.layers :: (inner ++ post)
  first : e.first = n + (wordsOf pre).length
  words : (wordsOf inner).map Prod.snd = e.words
  inside : Earlier [.str e.id] inner
  outside : Earlier [p] (pre ++ post)
  parent : q = p ∨ ∃ i ∈ idsOf pre, q = .str i

theorem PartOf.shift {a b : List CStep} {p : NodeId} {n m : Nat} {s : List CStep} {e : CPart} {pre : List CStep} {q : NodeId} {inner post : List CStep} (h : PartOf p (n + (wordsOf a).length) s e pre q inner post) (ha : Earlier [p] a) (hb : Earlier [p] b)
    (hm : m = n) : PartOf p m (a ++ s ++ b) e (a ++ pre) q inner (post ++ b) := by
  subst hm
  refine ⟨?_, ?_, h.words, h.inside, ?_, ?_⟩
  · rw [h.steps]; simp
  · rw [h.first, wordsOf_append, List.length_append, Nat.add_assoc]
  · rw [show a ++ pre ++ (post ++ b) = a ++ (pre ++ post ++ b) by simp]
    exact ha.append (h.outside.append hb)
  · rcases h.parent with h | ⟨i, hi, h⟩
    · exact .inl h
    · exact .inr ⟨i, by rw [idsOf_append]; exact List.mem_append_right _ hi, h⟩

/-- the same below a new parent -/
theorem PartOf.under {n : Nat} {s : List CStep} {e : CPart} {pre : List CStep} {q : NodeId} {inner post : List CStep} {id : String} {ls : List String} {r : NodeId} (h : PartOf (.str id) n s e pre q inner post) {tail : List CStep} (ht : Earlier [r] tail) :
    PartOf r n (.elem r id ls :: (s ++ tail)) e (.elem r id ls :: pre) q inner (post ++ tail) := by
  refine ⟨?_, ?_, h.words, h.inside, ?_, ?_⟩
  · rw [h.steps]; simp
  · rw [h.first]; rfl
  · refine ⟨by simp, ?_⟩
    rw [show pre.append (post ++ tail) = pre ++ post ++ tail from (List.append_assoc pre post tail).symm]
    refine (h.outside.mono ?_).append (ht.mono ?_) <;> simp
  · rcases h.parent with h | ⟨i, hi, h⟩
    · exact .inr ⟨id, by simp [idsOf, CStep.id?], h⟩
    · exact .inr ⟨i, by unfold idsOf at hi ⊢; rw [List.filterMap_cons]; simp [CStep.id?, hi], h⟩

mutual
theorem elements_part (p : NodeId) : ∀ (t : CTree) (n : Nat) (e : CPart), e ∈ t.elements n → ∃ pre q inner post, PartOf p n (t.steps p) e pre q inner post
  | .node id ls text kids tail, n, e, h => by
    unfold CTree.elements at h
    unfold CTree.steps
    have ht : Earlier [p] ((splitWs tail).map (CStep.word p)) := earlier_words (by simp) _
    rcases List.mem_cons.1 h with rfl | h
    · refine ⟨[], p, (splitWs text).map (CStep.word (.str id)) ++ CTree.stepsAll (.str id) kids, (splitWs tail).map (CStep.word p), rfl, rfl, ?_, ?_, ht, .inl rfl⟩
      · rw [wordsOf_append, wordsOf_map, List.map_append, map_snd, words_stepsAll]
      · exact (earlier_words (by simp) _).append (earlier_stepsAll (by simp) _)
    · obtain ⟨pre, q, inner, post, hp⟩ := elementsAll_part (.str id) kids _ e h
      have h2 := PartOf.shift (m := n) (a := (splitWs text).map (CStep.word (.str id))) (b := []) (by rw [wordsOf_map, List.length_map]; exact hp) (earlier_words (by simp) _) trivial rfl
      rw [List.append_nil, List.append_nil] at h2
      exact ⟨_, _, _, _, h2.under (r := p) (ls := ls) ht⟩
theorem elementsAll_part (p : NodeId) : ∀ (ts : List CTree) (n : Nat) (e : CPart), e ∈ CTree.elementsAll n ts → ∃ pre q inner post, PartOf p n (CTree.stepsAll p ts) e pre q inner post
  | [], n, e, h => by cases h
  | t :: ts, n, e, h => by
    unfold CTree.elementsAll at h
    unfold CTree.stepsAll
    rcases List.mem_append.1 h with h | h
    · obtain ⟨pre, q, inner, post, hp⟩ := elements_part p t n e h
      have h2 := PartOf.shift (m := n) (a := []) (b := CTree.stepsAll p ts) hp trivial (earlier_stepsAll (by simp) _) rfl
      exact ⟨_, _, _, _, h2⟩
    · obtain ⟨pre, q, inner, post, hp⟩ := elementsAll_part p ts _ e h
      have h2 := PartOf.shift (m := n) (a := t.steps p) (b := []) (by rw [wordsOf_length]; exact hp) (earlier_steps (by simp) _) trivial rfl
      rw [List.append_nil, List.append_nil] at h2
      exact ⟨_, _, _, _, h2⟩
end

/-- the calls build the graph from the top to the bottom -/
theorem topDown_conano {ns : String} : ∀ (s : List CStep) (n : Nat) (seen : List NodeId), Earlier seen s → (idsOf s).Nodup → (∀ i ∈ idsOf s, .str i ∉ seen ∧ ∀ m, NodeId.str i ≠ conanoTokenId m) →
    (∀ m, n ≤ m → conanoTokenId m ∉ seen) → TopDown seen (edgesOf (conanoScript ns n s))
  | [], n, seen, _, _, _, _ => trivial
  | .elem p id ls :: s, n, seen, he, hn, hi, ht => by
    have hn' : id ∉ idsOf s ∧ (idsOf s).Nodup := List.nodup_cons.1 hn
    refine ⟨he.1, (hi id (List.mem_cons_self)).1, ?_⟩
    refine topDown_conano s n _ he.2 hn'.2 ?_ ?_
    · intro i h
      have := hi i (List.mem_cons_of_mem _ h)
      refine ⟨?_, this.2⟩
      rw [List.mem_cons]
      rintro (h1 | h1)
      · injection h1 with h1; subst h1; exact hn'.1 h
      · exact this.1 h1
    · intro m hm
      rw [List.mem_cons]
      rintro (h1 | h1)
      · exact (hi id List.mem_cons_self).2 m h1.symm
      · exact ht m hm h1
  | .word p w :: s, n, seen, he, hn, hi, ht => by
    refine ⟨he.1, ht n (Nat.le_refl _), ?_⟩
    refine topDown_conano s (n + 1) _ (he.2.mono (fun _ h => List.mem_cons_of_mem _ h)) hn ?_ ?_
    · intro i h
      have := hi i h
      refine ⟨?_, this.2⟩
      rw [List.mem_cons]
      rintro (h1 | h1)
      · exact this.2 _ h1
      · exact this.1 h1
    · intro m hm
      rw [List.mem_cons]
      rintro (h1 | h1)
      · have := conanoTokenId_inj h1
        omega
      · exact ht m (by omega) h1

/-- edges of the calls, in terms of the items -/
theorem mem_edges_conano {ns : String} {s : List CStep} {n : Nat} {u v : NodeId} : (u, v) ∈ edgesOf (conanoScript ns n s) ↔
    (∃ id ls, .elem u id ls ∈ s ∧ v = .str id) ∨ ∃ (j : Nat) (w : List Char), (wordsOf s)[j]? = some (u, w) ∧ v = conanoTokenId (n + j) := by
  rw [mem_edgesOf]
  constructor
  · rintro ⟨ls, at', h⟩
    rcases (mem_conanoScript s n).1 h with ⟨p, id, ls', hm, h | h⟩ | ⟨j, p, w, hj, h | h | h⟩
    · cases h
    · injection h with h1 h2
      subst h1 h2
      exact .inl ⟨id, ls', hm, rfl⟩
    · cases h
    · injection h with h1 h2
      subst h1 h2
      exact .inr ⟨j, w, hj, rfl⟩
    · cases h
  · rintro (⟨id, ls, h, rfl⟩ | ⟨j, w, h, rfl⟩)
    · exact ⟨_, _, (mem_conanoScript s n).2 (.inl ⟨u, id, ls, h, .inr rfl⟩)⟩
    · exact ⟨_, _, (mem_conanoScript s n).2 (.inr ⟨j, u, w, h, .inr (.inl rfl)⟩)⟩

/-- parents come from the items seen before -/
theorem Earlier.parents : ∀ {s : List CStep} {seen : List NodeId}, Earlier seen s →
    (∀ p id ls, .elem p id ls ∈ s → p ∈ seen ∨ ∃ i ∈ idsOf s, p = .str i) ∧ (∀ p w, .word p w ∈ s → p ∈ seen ∨ ∃ i ∈ idsOf s, p = .str i)
  | [], _, _ => ⟨by simp, by simp⟩
  | .elem q id ls :: s, seen, h => by
    obtain ⟨a, b⟩ := h.2.parents
    have hid : ∀ i, i ∈ idsOf (.elem q id ls :: s) ↔ i = id ∨ i ∈ idsOf s := fun i => List.mem_cons
    have hl : ∀ p : NodeId, (p ∈ NodeId.str id :: seen ∨ ∃ i ∈ idsOf s, p = .str i) → p ∈ seen ∨ ∃ i ∈ idsOf (.elem q id ls :: s), p = .str i := by
      rintro p (h1 | ⟨i, h1, rfl⟩)
      · rcases List.mem_cons.1 h1 with rfl | h1
        · exact .inr ⟨id, (hid _).2 (.inl rfl), rfl⟩
        · exact .inl h1
      · exact .inr ⟨i, (hid _).2 (.inr h1), rfl⟩
    constructor
    · intro p i l hm
      rcases List.mem_cons.1 hm with hm | hm
      · injection hm with h1
        subst h1
        exact .inl h.1
      · exact hl _ (a p i l hm)
    · intro p w hm
      rcases List.mem_cons.1 hm with hm | hm
      · cases hm
      · exact hl _ (b p w hm)
  | .word q w :: s, seen, h => by
    obtain ⟨a, b⟩ := h.2.parents
    constructor
    · intro p i l hm
      rcases List.mem_cons.1 hm with hm | hm
      · cases hm
      · exact a p i l hm
    · intro p w' hm
      rcases List.mem_cons.1 hm with hm | hm
      · injection hm with h1
        subst h1
        exact .inl h.1
      · exact b p w' hm

theorem mem_wordsOf {s : List CStep} {p : NodeId} {w : List Char} : (p, w) ∈ wordsOf s ↔ .word p w ∈ s := by
  unfold wordsOf
  rw [List.mem_filterMap]
  constructor
  · rintro ⟨x, hx, h⟩
    cases x with
    | elem => cases h
    | word p' w' =>
      obtain ⟨rfl, rfl⟩ := Prod.mk.inj (Option.some.inj h)
      exact hx
  · exact fun h => ⟨_, h, rfl⟩

/-- everything inside an element is reached from it -/
theorem Earlier.reached {R : NodeId → Prop} : ∀ {s : List CStep} {seen : List NodeId}, Earlier seen s → (∀ m ∈ seen, R m) → (∀ p id ls, .elem p id ls ∈ s → R p → R (.str id)) →
    (∀ i ∈ idsOf s, R (.str i)) ∧ ∀ p w, .word p w ∈ s → R p
  | [], _, _, _, _ => ⟨by simp [idsOf], by simp⟩
  | .elem q id ls :: s, seen, h, hs, hr => by
    have hid : R (.str id) := hr q id ls (by simp) (hs q h.1)
    obtain ⟨a, b⟩ := h.2.reached (fun m hm => by rcases List.mem_cons.1 hm with rfl | hm; exact hid; exact hs m hm) (fun p i l hm => hr p i l (List.mem_cons_of_mem _ hm))
    constructor
    · intro i hi
      rcases List.mem_cons.1 (show i ∈ id :: idsOf s from hi) with rfl | hi
      · exact hid
      · exact a i hi
    · intro p w hm
      rcases List.mem_cons.1 hm with hm | hm
      · cases hm
      · exact b p w hm
  | .word q w :: s, seen, h, hs, hr => by
    obtain ⟨a, b⟩ := h.2.reached hs (fun p i l hm => hr p i l (List.mem_cons_of_mem _ hm))
    constructor
    · exact a
    · intro p w' hm
      rcases List.mem_cons.1 hm with hm | hm
      · injection hm with h1
        subst h1
        exact hs _ h.1
      · exact b p w' hm

/-- What is reached from an element: itself, the elements inside and the tokens inside. -/
theorem part_reach {ns : String} {n : Nat} {s : List CStep} {e : CPart} {r : NodeId} {pre : List CStep} {q : NodeId} {inner post : List CStep} (hp : PartOf r n s e pre q inner post) (hn : (idsOf s).Nodup)
    (hi : ∀ i ∈ idsOf s, .str i ≠ r ∧ ∀ m, NodeId.str i ≠ conanoTokenId m) (hr : ∀ m, r ≠ conanoTokenId m) {S : NodeId → NodeId → Prop} (hS : ∀ u v, S u v ↔ (u, v) ∈ edgesOf (conanoScript ns n s)) {R : NodeId → NodeId → Prop}
    (hrefl : ∀ u, R u u) (hstep : ∀ {u v w}, R u v → S v w → R u w) (hinv : ∀ (P : NodeId → Prop) (u : NodeId), P u → (∀ x y, P x → S x y → P y) → ∀ v, R u v → P v) (m : NodeId) :
    R (.str e.id) m ↔ m = .str e.id ∨ (∃ i ∈ idsOf inner, m = .str i) ∨ ∃ j, j < e.words.length ∧ m = conanoTokenId (e.first + j) := by
  have hlen : (wordsOf inner).length = e.words.length := by rw [← hp.words, List.length_map]
  have hids : idsOf s = idsOf pre ++ e.id :: (idsOf inner ++ idsOf post) := by
    rw [hp.steps, idsOf_append, ← idsOf_append inner post]
    rfl
  have hw : wordsOf s = wordsOf pre ++ (wordsOf inner ++ wordsOf post) := by
    rw [hp.steps, wordsOf_append, wordsOf_elem, wordsOf_append]
  have hn2 := hn
  rw [hids, List.nodup_append, List.nodup_cons, List.nodup_append] at hn2
  obtain ⟨hn1, ⟨hn3, hn4, hn5, hn6⟩, hn7⟩ := hn2
  -- IDs outside
  have hout : ∀ x : NodeId, (x ∈ [r] ∨ ∃ i ∈ idsOf (pre ++ post), x = .str i) → ¬ (x = .str e.id ∨ (∃ i ∈ idsOf inner, x = .str i) ∨ ∃ j, j < e.words.length ∧ x = conanoTokenId (e.first + j)) := by
    have hmem : ∀ i, i = e.id ∨ i ∈ idsOf inner → i ∈ idsOf s := by
      rintro i (rfl | h) <;> rw [hids] <;> simp_all
    rintro x (hx | ⟨i, hx, rfl⟩)
    · obtain rfl := List.mem_singleton.1 hx
      rintro (h | ⟨i, h1, h⟩ | ⟨j, _, h⟩)
      · exact (hi e.id (hmem _ (.inl rfl))).1 h.symm
      · exact (hi i (hmem _ (.inr h1))).1 h.symm
      · exact hr _ h
    · rw [idsOf_append, List.mem_append] at hx
      have hs : i ∈ idsOf s := by rw [hids]; rcases hx with hx | hx <;> simp [hx]
      rintro (h | ⟨i', h1, h⟩ | ⟨j, _, h⟩)
      · injection h with h
        subst h
        rcases hx with hx | hx
        · exact hn7 _ hx _ List.mem_cons_self rfl
        · exact hn3 (List.mem_append_right _ hx)
      · injection h with h
        subst h
        rcases hx with hx | hx
        · exact hn7 _ hx _ (List.mem_cons_of_mem _ (List.mem_append_left _ h1)) rfl
        · exact hn6 _ h1 _ hx rfl
      · exact (hi i hs).2 _ h
  obtain ⟨pa, pb⟩ := hp.outside.parents
  obtain ⟨ia, ib⟩ := hp.inside.parents
  constructor
  · intro h
    refine hinv (fun m => m = .str e.id ∨ (∃ i ∈ idsOf inner, m = .str i) ∨ ∃ j, j < e.words.length ∧ m = conanoTokenId (e.first + j)) _ (.inl rfl) ?_ m h
    intro x y hx hxy
    rw [hS, mem_edges_conano] at hxy
    rcases hxy with ⟨id, ls, hm, rfl⟩ | ⟨j, w, hj, rfl⟩
    · rw [hp.steps] at hm
      rcases List.mem_append.1 hm with hm | hm
      · exact absurd hx (hout x (pa x id ls (List.mem_append_left _ hm)))
      · rcases List.mem_cons.1 hm with hm | hm
        · injection hm with h1 h2 h3
          subst h2
          exact .inl rfl
        · rcases List.mem_append.1 hm with hm | hm
          · exact .inr (.inl ⟨id, mem_idsOf.2 ⟨x, ls, hm⟩, rfl⟩)
          · exact absurd hx (hout x (pa x id ls (List.mem_append_right _ hm)))
    · rw [hw] at hj
      by_cases h1 : j < (wordsOf pre).length
      · rw [List.getElem?_append_left h1] at hj
        exact absurd hx (hout x (pb x w (List.mem_append_left _ (mem_wordsOf.1 (List.mem_of_getElem? hj)))))
      · rw [List.getElem?_append_right (by omega)] at hj
        by_cases h2 : j - (wordsOf pre).length < (wordsOf inner).length
        · refine .inr (.inr ⟨j - (wordsOf pre).length, by omega, ?_⟩)
          rw [hp.first]
          congr 1
          omega
        · rw [List.getElem?_append_right (by omega)] at hj
          exact absurd hx (hout x (pb x w (List.mem_append_right _ (mem_wordsOf.1 (List.mem_of_getElem? hj)))))
  · intro h
    have hmem : ∀ x, x ∈ inner → x ∈ s := by
      intro x hx
      rw [hp.steps]
      exact List.mem_append_right _ (List.mem_cons_of_mem _ (List.mem_append_left _ hx))
    obtain ⟨a, b⟩ := hp.inside.reached (R := R (.str e.id)) (by intro m hm; obtain rfl := List.mem_singleton.1 hm; exact hrefl _) (by
      intro p id ls hm hr
      exact hstep hr ((hS _ _).2 (mem_edges_conano.2 (.inl ⟨id, ls, hmem _ hm, rfl⟩))))
    rcases h with rfl | ⟨i, hi, rfl⟩ | ⟨j, hj, rfl⟩
    · exact hrefl _
    · exact a i hi
    · have hj' : j < (wordsOf inner).length := by omega
      obtain ⟨⟨p, w⟩, hpw⟩ : ∃ x, (wordsOf inner)[j]? = some x := ⟨_, List.getElem?_eq_getElem hj'⟩
      refine hstep (b p w (mem_wordsOf.1 (List.mem_of_getElem? hpw))) ((hS _ _).2 (mem_edges_conano.2 (.inr ⟨(wordsOf pre).length + j, w, ?_, ?_⟩)))
      · rw [hw, List.getElem?_append_right (by omega), Nat.add_sub_cancel_left, List.getElem?_append_left hj', hpw]
      · rw [hp.first, Nat.add_assoc]

mutual
theorem steps_element (p : NodeId) : ∀ (t : CTree) (n : Nat) (q : NodeId) (id : String) (ls : List String), .elem q id ls ∈ t.steps p → ∃ x ∈ t.elements n, x.id = id ∧ x.layers = ls
  | .node i l text kids tail, n, q, id, ls, h => by
    unfold CTree.steps at h
    unfold CTree.elements
    rcases List.mem_cons.1 h with h | h
    · injection h with h1 h2 h3
      subst h2 h3
      exact ⟨_, List.mem_cons_self, rfl, rfl⟩
    · rcases List.mem_append.1 h with h | h
      · rcases List.mem_append.1 h with h | h
        · obtain ⟨_, _, h⟩ := List.mem_map.1 h; cases h
        · obtain ⟨x, hx, h⟩ := stepsAll_element (.str i) kids _ q id ls h
          exact ⟨x, List.mem_cons_of_mem _ hx, h⟩
      · obtain ⟨_, _, h⟩ := List.mem_map.1 h; cases h
theorem stepsAll_element (p : NodeId) : ∀ (ts : List CTree) (n : Nat) (q : NodeId) (id : String) (ls : List String), .elem q id ls ∈ CTree.stepsAll p ts → ∃ x ∈ CTree.elementsAll n ts, x.id = id ∧ x.layers = ls
  | [], n, q, id, ls, h => by cases h
  | t :: ts, n, q, id, ls, h => by
    unfold CTree.stepsAll at h
    unfold CTree.elementsAll
    rcases List.mem_append.1 h with h | h
    · obtain ⟨x, hx, h⟩ := steps_element p t n q id ls h
      exact ⟨x, List.mem_append_left _ hx, h⟩
    · obtain ⟨x, hx, h⟩ := stepsAll_element p ts _ q id ls h
      exact ⟨x, List.mem_append_right _ hx, h⟩
end

theorem PartOf.elem_mem {p : NodeId} {n : Nat} {s : List CStep} {e : CPart} {pre : List CStep} {q : NodeId} {inner post : List CStep} (h : PartOf p n s e pre q inner post) : .elem q e.id e.layers ∈ s := by
  rw [h.steps]
  simp

theorem conanoTokenId_le (a b : Nat) : (naturalLe (conanoTokenId a) (conanoTokenId b) = true ↔ a ≤ b) := by
  have h := (c20_numbered_ids_sort_numerically "token:" (by intro c hc; have : c = ':' := by simpa using hc.symm
                                                            subst this; decide) a b).1
  have e : ∀ n, "token:" ++ String.ofList (decimal n) = String.ofList ("token:".toList ++ decimal n) := by
    intro n
    apply String.toList_inj.1
    simp
  rw [e, e] at h
  exact h

/-- a sorted list of tokens is determined by its members -/
theorem tokens_unique {l : List NodeId} (hs : l.Pairwise (fun a b => naturalLe a b = true)) (hn : l.Nodup) (k n : Nat) (hm : ∀ m, m ∈ l ↔ ∃ j, j < n ∧ m = conanoTokenId (k + j)) : l = (List.range' k n).map conanoTokenId := by
  have hm2 : ∀ m, m ∈ (List.range' k n).map conanoTokenId ↔ ∃ j, j < n ∧ m = conanoTokenId (k + j) := by
    intro m
    rw [List.mem_map]
    constructor
    · rintro ⟨i, hi, rfl⟩
      have := List.mem_range'_1.1 hi
      exact ⟨i - k, by omega, by congr 1; omega⟩
    · rintro ⟨j, hj, rfl⟩
      exact ⟨k + j, List.mem_range'_1.2 ⟨by omega, by omega⟩, rfl⟩
  have hn2 : ((List.range' k n).map conanoTokenId).Nodup := by
    rw [List.nodup_iff_pairwise_ne, List.pairwise_map]
    exact (List.nodup_range' (s := k) (n := n)).imp (fun h e => h (conanoTokenId_inj e))
  have hs2 : ((List.range' k n).map conanoTokenId).Pairwise (fun a b => naturalLe a b = true) := by
    rw [List.pairwise_map]
    exact List.pairwise_le_range'.imp (fun h => (conanoTokenId_le _ _).2 h)
  have hp : l.Perm ((List.range' k n).map conanoTokenId) := (List.perm_ext_iff_of_nodup hn hn2).2 (fun m => (hm m).trans (hm2 m).symm)
  refine hp.eq_of_pairwise ?_ hs hs2
  intro a b ha hb h1 h2
  obtain ⟨i, _, rfl⟩ := (hm a).1 ha
  obtain ⟨j, _, rfl⟩ := (hm2 b).1 hb
  have e1 := (conanoTokenId_le _ _).1 h1
  have e2 := (conanoTokenId_le _ _).1 h2
  congr 1
  omega

end DG
end Dg
