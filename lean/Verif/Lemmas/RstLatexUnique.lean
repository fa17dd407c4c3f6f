/-
The LaTeX source determines the structure.
-/
import Verif.Lemmas.RstLatexTree
import Mathlib.Tactic.Tauto

namespace Dg

namespace LTree

mutual
/-- a structure in normal form whose names and texts leave the grouping of the source intact: no closing braces, texts without superfluous white space, named
relations, satellites of a bundle in text order -/
def Canonical : LTree → Prop
  | .edu s => unitText s = s ∧ '}' ∉ s
  | .multi rel kids => '}' ∉ rel ∧ CanonicalAll kids
  | .mono rel _ sat nuc => ('}' ∉ rel ∧ rel ≠ []) ∧ sat.Canonical ∧ nuc.Canonical
  | .bundle rels sats nuc =>
    (∀ r ∈ rels, '}' ∉ r.1 ∧ r.1 ≠ []) ∧ rels.length = sats.length ∧ 2 ≤ rels.length ∧ rels.Pairwise (fun a b => b.2 = true → a.2 = true) ∧
      CanonicalAll sats ∧ nuc.Canonical
/-- all structures of a list are in normal form -/
def CanonicalAll : List LTree → Prop
  | [] => True
  | k :: ks => k.Canonical ∧ CanonicalAll ks
end

theorem canonicalAll_iff : ∀ l : List LTree, CanonicalAll l ↔ ∀ k ∈ l, k.Canonical
  | [] => by simp [CanonicalAll]
  | k :: ks => by simp [CanonicalAll, canonicalAll_iff ks]

end LTree

/-- the rest of the source after a complete part -/
def StopsAt (r : List Char) : Prop := r = [] ∨ ∃ r', r = '}' :: r'

theorem brace_cancel : ∀ {x y r r' : List Char}, '}' ∉ x → '}' ∉ y → x ++ '}' :: r = y ++ '}' :: r' → x = y ∧ r = r'
  | [], [], r, r', _, _, h => by simpa using h
  | [], c :: y, r, r', _, hy, h => by
    simp only [List.nil_append, List.cons_append, List.cons.injEq] at h
    exact absurd (by rw [h.1]; simp) hy
  | c :: x, [], r, r', hx, _, h => by
    simp only [List.nil_append, List.cons_append, List.cons.injEq] at h
    exact absurd (by simp [h.1]) hx
  | c :: x, d :: y, r, r', hx, hy, h => by
    simp only [List.cons_append, List.cons.injEq] at h
    obtain ⟨h1, h2⟩ := brace_cancel (fun hh => hx (by simp [hh])) (fun hh => hy (by simp [hh])) h.2
    exact ⟨by rw [h.1, h1], h2⟩

/-- a part of a relation: relation name (empty for the nucleus) and structure -/
abbrev Group := List Char × LTree

/-- the source of the parts of a relation -/
def groupsTex (gs : List Group) : List Char := gs.flatMap (fun g => ['{'] ++ g.1 ++ ['}', '{'] ++ g.2.segment ++ ['}'])

/-- the satellites on one side -/
def sideGroups (side : Bool) (xs : List ((List Char × Bool) × LTree)) : List Group := (xs.filter (fun x => x.1.2 = side)).map (fun x => (x.1.1, x.2))

/-- the parts of a relation with one nucleus -/
def LTree.groups : LTree → List Group
  | .mono rel left sat nuc => sideParts left (rel, sat) ([], nuc)
  | .bundle rels sats nuc => sideGroups true (rels.zip sats) ++ ([], nuc) :: sideGroups false (rels.zip sats)
  | _ => []

theorem texSats_groups (side : Bool) : ∀ (rels : List (List Char × Bool)) (sats : List LTree),
    LTree.texSats side rels sats = groupsTex (sideGroups side (rels.zip sats))
  | [], [] => by simp [LTree.texSats, groupsTex, sideGroups]
  | [], _ :: _ => by simp [LTree.texSats, groupsTex, sideGroups]
  | _ :: _, [] => by simp [LTree.texSats, groupsTex, sideGroups]
  | r :: rs, k :: ks => by
    simp only [LTree.texSats, texSats_groups side rs ks, List.zip_cons_cons, sideGroups, List.filter_cons]
    by_cases h : r.2 = side
    · simp [h, groupsTex, LTree.satGroup]
    · simp [h, groupsTex]

theorem segment_mono (rel : List Char) (left : Bool) (sat nuc : LTree) : (LTree.mono rel left sat nuc).segment =
    dirrelCmd ++ groupsTex (LTree.mono rel left sat nuc).groups := by
  cases left <;> simp [LTree.segment, LTree.groups, sideParts, groupsTex, LTree.satGroup, LTree.nucGroup, dirrelCmd]

theorem segment_bundle (rels : List (List Char × Bool)) (sats : List LTree) (nuc : LTree) : (LTree.bundle rels sats nuc).segment =
    dirrelCmd ++ groupsTex (LTree.bundle rels sats nuc).groups := by
  simp [LTree.segment, LTree.groups, texSats_groups, groupsTex, LTree.nucGroup, dirrelCmd]

/-- `a` can be read off its source -/
def Readable (a : LTree) : Prop := ∀ b : LTree, b.Canonical → ∀ r r', StopsAt r → StopsAt r' → a.segment ++ r = b.segment ++ r' → a = b ∧ r = r'

theorem groups_read : ∀ {gs hs : List Group}, (∀ g ∈ gs, '}' ∉ g.1 ∧ Readable g.2) → (∀ h ∈ hs, '}' ∉ h.1 ∧ h.2.Canonical) → ∀ {r r' : List Char}, StopsAt r →
    StopsAt r' → groupsTex gs ++ r = groupsTex hs ++ r' → gs = hs ∧ r = r'
  | [], [], _, _, r, r', _, _, h => by simpa [groupsTex] using h
  | [], h :: hs, _, _, r, r', hr, _, e => by
    rcases hr with rfl | ⟨r1, rfl⟩ <;> simp [groupsTex] at e
  | g :: gs, [], _, _, r, r', _, hr', e => by
    rcases hr' with rfl | ⟨r1, rfl⟩ <;> simp [groupsTex] at e
  | g :: gs, h :: hs, hg, hh, r, r', hr, hr', e => by
    simp only [groupsTex, List.flatMap_cons, List.append_assoc, List.cons_append, List.nil_append, List.cons.injEq, true_and] at e
    obtain ⟨e1, e2⟩ := brace_cancel (hg g (by simp)).1 (hh h (by simp)).1 e
    simp only [List.cons.injEq, true_and] at e2
    obtain ⟨e3, e4⟩ := (hg g (by simp)).2 h.2 (hh h (by simp)).2 _ _ (.inr ⟨_, rfl⟩) (.inr ⟨_, rfl⟩) e2
    simp only [List.cons.injEq, true_and] at e4
    obtain ⟨e5, e6⟩ := groups_read (fun x hx => hg x (List.mem_cons_of_mem _ hx)) (fun x hx => hh x (List.mem_cons_of_mem _ hx)) hr hr' (by simpa [groupsTex] using e4)
    exact ⟨by rw [e5, Prod.ext e1 e3], e6⟩

theorem nuclei_read : ∀ {gs hs : List LTree}, (∀ g ∈ gs, Readable g) → (∀ h ∈ hs, h.Canonical) → ∀ {r r' : List Char}, StopsAt r → StopsAt r' →
    LTree.texNuclei gs ++ r = LTree.texNuclei hs ++ r' → gs = hs ∧ r = r'
  | [], [], _, _, r, r', _, _, h => by simpa [LTree.texNuclei] using h
  | [], h :: hs, _, _, r, r', hr, _, e => by
    rcases hr with rfl | ⟨r1, rfl⟩ <;> simp [LTree.texNuclei] at e
  | g :: gs, [], _, _, r, r', _, hr', e => by
    rcases hr' with rfl | ⟨r1, rfl⟩ <;> simp [LTree.texNuclei] at e
  | g :: gs, h :: hs, hg, hh, r, r', hr, hr', e => by
    simp only [LTree.texNuclei, List.append_assoc, List.cons_append, List.nil_append, List.cons.injEq, true_and] at e
    obtain ⟨e3, e4⟩ := (hg g (by simp)) h (hh h (by simp)) _ _ (.inr ⟨_, rfl⟩) (.inr ⟨_, rfl⟩) e
    simp only [List.cons.injEq, true_and] at e4
    obtain ⟨e5, e6⟩ := nuclei_read (fun x hx => hg x (List.mem_cons_of_mem _ hx)) (fun x hx => hh x (List.mem_cons_of_mem _ hx)) hr hr' e4
    exact ⟨by rw [e5, e3], e6⟩

/-- the nucleus is the part without a relation name -/
theorem split_nuc : ∀ {a b c d : List Group} {n m : LTree}, (∀ g ∈ a, g.1 ≠ []) → (∀ g ∈ c, g.1 ≠ []) → a ++ ([], n) :: b = c ++ ([], m) :: d → a = c ∧ n = m ∧ b = d
  | [], b, [], d, n, m, _, _, h => by simpa using h
  | [], b, x :: c, d, n, m, _, hc, h => by
    simp only [List.nil_append, List.cons_append, List.cons.injEq] at h
    exact absurd (by rw [← h.1]) (hc x (by simp))
  | x :: a, b, [], d, n, m, ha, _, h => by
    simp only [List.nil_append, List.cons_append, List.cons.injEq] at h
    exact absurd (by rw [h.1]) (ha x (by simp))
  | x :: a, b, y :: c, d, n, m, ha, hc, h => by
    simp only [List.cons_append, List.cons.injEq] at h
    obtain ⟨h1, h2, h3⟩ := split_nuc (fun g hg => ha g (List.mem_cons_of_mem _ hg)) (fun g hg => hc g (List.mem_cons_of_mem _ hg)) h.2
    exact ⟨by rw [h.1, h1], h2, h3⟩

theorem sorted_sides {xs : List ((List Char × Bool) × LTree)} (h : xs.Pairwise (fun a b => b.1.2 = true → a.1.2 = true)) :
    xs = (sideGroups true xs).map (fun g => ((g.1, true), g.2)) ++ (sideGroups false xs).map (fun g => ((g.1, false), g.2)) := by
  induction xs with
  | nil => rfl
  | cons x xs ih =>
    obtain ⟨h1, h2⟩ := List.pairwise_cons.1 h
    have ih := ih h2
    rcases Bool.eq_false_or_eq_true x.1.2 with hx | hx
    · conv => lhs; rw [ih]
      have : x = ((x.1.1, true), x.2) := Prod.ext (Prod.ext rfl hx) rfl
      simp only [sideGroups, List.filter_cons, hx]
      simp [← this]
    · have h0 : ∀ y ∈ xs, y.1.2 = false := by
        intro y hy
        rcases Bool.eq_false_or_eq_true y.1.2 with hh | hh
        · have := h1 y hy hh; rw [hx] at this; cases this
        · exact hh
      have e1 : sideGroups true (x :: xs) = [] := by
        unfold sideGroups
        rw [List.map_eq_nil_iff, List.filter_eq_nil_iff]
        intro y hy
        rcases List.mem_cons.1 hy with rfl | hy
        · simp [hx]
        · simp [h0 y hy]
      rw [e1]
      unfold sideGroups
      rw [List.filter_eq_self.2, List.map_map, List.map_nil, List.nil_append]
      · symm
        conv => rhs; rw [← List.map_id (x :: xs)]
        apply List.map_congr_left
        intro y hy
        rcases List.mem_cons.1 hy with rfl | hy
        · exact Prod.ext (Prod.ext rfl hx.symm) rfl
        · exact Prod.ext (Prod.ext rfl (h0 y hy).symm) rfl
      · intro y hy
        rcases List.mem_cons.1 hy with rfl | hy
        · simp [hx]
        · simp [h0 y hy]

theorem zip_sorted {rels : List (List Char × Bool)} {sats : List LTree} (h : rels.Pairwise (fun a b => b.2 = true → a.2 = true)) :
    (rels.zip sats).Pairwise (fun a b => b.1.2 = true → a.1.2 = true) := by
  induction rels generalizing sats with
  | nil => simp
  | cons r rs ih =>
    cases sats with
    | nil => simp
    | cons k ks =>
      obtain ⟨h1, h2⟩ := List.pairwise_cons.1 h
      rw [List.zip_cons_cons, List.pairwise_cons]
      exact ⟨fun x hx => h1 _ (List.of_mem_zip hx).1, ih h2⟩

theorem zip_inj {α β : Type} : ∀ {a c : List α} {b d : List β}, a.length = b.length → c.length = d.length → a.zip b = c.zip d → a = c ∧ b = d
  | [], [], [], [], _, _, _ => ⟨rfl, rfl⟩
  | [], _ :: _, [], _ :: _, _, _, h => by simp at h
  | _ :: _, [], _ :: _, [], _, _, h => by simp at h
  | x :: a, y :: c, u :: b, v :: d, h1, h2, h => by
    simp only [List.zip_cons_cons, List.cons.injEq, Prod.mk.injEq] at h
    obtain ⟨e1, e2⟩ := zip_inj (by simpa using h1) (by simpa using h2) h.2
    exact ⟨by rw [h.1.1, e1], by rw [h.1.2, e2]⟩
  | [], _, _ :: _, _, h, _, _ => by simp at h
  | _ :: _, _, [], _, h, _, _ => by simp at h
  | _, [], _, _ :: _, _, h, _ => by simp at h
  | _, _ :: _, _, [], _, h, _ => by simp at h

theorem sides_perm (xs : List ((List Char × Bool) × LTree)) : (sideGroups true xs).length + (sideGroups false xs).length = xs.length := by
  induction xs with
  | nil => rfl
  | cons x xs ih =>
    unfold sideGroups at *
    rcases Bool.eq_false_or_eq_true x.1.2 with hx | hx <;> simp [hx] at ih ⊢ <;> omega

theorem sideGroups_mem {side : Bool} {xs : List ((List Char × Bool) × LTree)} {g : Group} (h : g ∈ sideGroups side xs) : ∃ x ∈ xs, g = (x.1.1, x.2) := by
  unfold sideGroups at h
  obtain ⟨x, hx, rfl⟩ := List.mem_map.1 h
  exact ⟨x, (List.mem_filter.1 hx).1, rfl⟩

theorem groups_inj {a b : LTree} (ha : a.Canonical) (hb : b.Canonical) (h : a.groups = b.groups) (hn : a.groups ≠ []) : a = b := by
  cases a with
  | edu _ => exact absurd rfl hn
  | multi _ _ => exact absurd rfl hn
  | mono rel left sat nuc =>
    simp only [LTree.Canonical] at ha
    cases b with
    | edu _ => rw [h] at hn; exact absurd rfl hn
    | multi _ _ => rw [h] at hn; exact absurd rfl hn
    | mono rel' left' sat' nuc' =>
      simp only [LTree.Canonical] at hb
      simp only [LTree.groups] at h
      cases left <;> cases left' <;> simp only [sideParts, if_true, if_false, Bool.false_eq_true, List.cons.injEq, Prod.mk.injEq] at h
      · obtain ⟨⟨_, e1⟩, ⟨e2, e3⟩, _⟩ := h; rw [e1, e2, e3]
      · exact absurd h.1.1.symm hb.1.2
      · exact absurd h.1.1 ha.1.2
      · obtain ⟨⟨e2, e3⟩, ⟨_, e1⟩, _⟩ := h; rw [e1, e2, e3]
    | bundle rels sats nuc' =>
      simp only [LTree.Canonical] at hb
      have := congrArg List.length h
      have h2 := sides_perm (rels.zip sats)
      have h3 : (sideParts left (rel, sat) (([] : List Char), nuc)).length = 2 := by cases left <;> rfl
      simp only [LTree.groups, List.length_append, List.length_cons, h3, List.length_zip] at this h2
      omega
  | bundle rels sats nuc =>
    simp only [LTree.Canonical] at ha
    cases b with
    | edu _ => rw [h] at hn; exact absurd rfl hn
    | multi _ _ => rw [h] at hn; exact absurd rfl hn
    | mono rel' left' sat' nuc' =>
      have := congrArg List.length h
      have h2 := sides_perm (rels.zip sats)
      have h3 : (sideParts left' (rel', sat') (([] : List Char), nuc')).length = 2 := by cases left' <;> rfl
      simp only [LTree.groups, List.length_append, List.length_cons, h3, List.length_zip] at this h2
      omega
    | bundle rels' sats' nuc' =>
      simp only [LTree.Canonical] at hb
      simp only [LTree.groups] at h
      obtain ⟨e1, e2, e3⟩ := split_nuc
        (fun g hg => by obtain ⟨x, hx, rfl⟩ := sideGroups_mem hg; exact (ha.1 _ (List.of_mem_zip hx).1).2)
        (fun g hg => by obtain ⟨x, hx, rfl⟩ := sideGroups_mem hg; exact (hb.1 _ (List.of_mem_zip hx).1).2) h
      have h1 := sorted_sides (zip_sorted (sats := sats) ha.2.2.2.1)
      have h2 := sorted_sides (zip_sorted (sats := sats') hb.2.2.2.1)
      rw [e1, e3, ← h2] at h1
      obtain ⟨e4, e5⟩ := zip_inj ha.2.1 hb.2.1 h1
      rw [e4, e5, e2]

theorem groups_ok {b : LTree} (hb : b.Canonical) : ∀ g ∈ b.groups, '}' ∉ g.1 ∧ g.2.Canonical := by
  cases b with
  | edu _ => intro g hg; cases hg
  | multi _ _ => intro g hg; cases hg
  | mono rel left sat nuc =>
    simp only [LTree.Canonical] at hb
    intro g hg
    simp only [LTree.groups] at hg
    have : g = (rel, sat) ∨ g = ([], nuc) := by
      cases left <;> simp [sideParts] at hg <;> tauto
    rcases this with rfl | rfl
    · exact ⟨hb.1.1, hb.2.1⟩
    · exact ⟨by simp, hb.2.2⟩
  | bundle rels sats nuc =>
    simp only [LTree.Canonical, LTree.canonicalAll_iff] at hb
    intro g hg
    simp only [LTree.groups, List.mem_append, List.mem_cons] at hg
    rcases hg with hg | rfl | hg
    · obtain ⟨x, hx, rfl⟩ := sideGroups_mem hg
      exact ⟨(hb.1 _ (List.of_mem_zip hx).1).1, hb.2.2.2.2.1 _ (List.of_mem_zip hx).2⟩
    · exact ⟨by simp, hb.2.2.2.2.2⟩
    · obtain ⟨x, hx, rfl⟩ := sideGroups_mem hg
      exact ⟨(hb.1 _ (List.of_mem_zip hx).1).1, hb.2.2.2.2.1 _ (List.of_mem_zip hx).2⟩

theorem groups_ne {b : LTree} (hb : (∃ r l s n, b = .mono r l s n) ∨ ∃ r s n, b = .bundle r s n) : b.groups ≠ [] := by
  rcases hb with ⟨r, l, s, n, rfl⟩ | ⟨r, s, n, rfl⟩
  · cases l <;> simp [LTree.groups, sideParts]
  · simp [LTree.groups]

/-- sources of relations with one nucleus -/
theorem directed_read {a : LTree} (ha : a.Canonical) (hd : (∃ r l s n, a = .mono r l s n) ∨ ∃ r s n, a = .bundle r s n) (hg : ∀ g ∈ a.groups, Readable g.2) :
    Readable a := by
  have hne := groups_ne hd
  have hseg : a.segment = dirrelCmd ++ groupsTex a.groups := by
    rcases hd with ⟨r, l, s, n, rfl⟩ | ⟨r, s, n, rfl⟩
    · exact segment_mono _ _ _ _
    · exact segment_bundle _ _ _
  intro b hb r r' hr hr' e
  rw [hseg] at e
  have main : b.segment = dirrelCmd ++ groupsTex b.groups → a = b ∧ r = r' := by
    intro hs
    rw [hs, List.append_assoc, List.append_assoc, List.append_cancel_left_eq] at e
    obtain ⟨e1, e2⟩ := groups_read (fun g hgm => ⟨(groups_ok ha g hgm).1, hg g hgm⟩) (groups_ok hb) hr hr' e
    exact ⟨groups_inj ha hb e1 hne, e2⟩
  cases b with
  | edu s => simp [LTree.segment, dirrelCmd] at e
  | multi rel kids => simp [LTree.segment, dirrelCmd] at e
  | mono _ _ _ _ => exact main (segment_mono _ _ _ _)
  | bundle _ _ _ => exact main (segment_bundle _ _ _)

theorem readable (a : LTree) : a.Canonical → Readable a := by
  induction a using LTree.ind with
  | h1 s =>
    intro ha b hb r r' hr hr' e
    simp only [LTree.Canonical] at ha
    cases b with
    | edu s' =>
      simp only [LTree.Canonical] at hb
      simp only [LTree.segment, ha.1, hb.1, List.append_assoc, List.cons_append, List.nil_append, List.cons.injEq, true_and] at e
      obtain ⟨e1, e2⟩ := brace_cancel ha.2 hb.2 e
      exact ⟨by rw [e1], e2⟩
    | multi rel kids => simp [LTree.segment] at e
    | mono _ _ _ _ => simp [LTree.segment] at e
    | bundle _ _ _ => simp [LTree.segment] at e
  | h2 rel kids ih =>
    intro ha b hb r r' hr hr' e
    simp only [LTree.Canonical, LTree.canonicalAll_iff] at ha
    cases b with
    | edu s' => simp [LTree.segment] at e
    | multi rel' kids' =>
      simp only [LTree.Canonical, LTree.canonicalAll_iff] at hb
      simp only [LTree.segment, List.append_assoc, List.cons_append, List.nil_append] at e
      simp only [List.cons.injEq, true_and] at e
      obtain ⟨e1, e2⟩ := brace_cancel ha.1 hb.1 e
      obtain ⟨e3, e4⟩ := nuclei_read (fun g hg => ih g hg (ha.2 g hg)) hb.2 hr hr' e2
      exact ⟨by rw [e1, e3], e4⟩
    | mono _ _ _ _ => simp [LTree.segment] at e
    | bundle _ _ _ => simp [LTree.segment] at e
  | h3 rel left sat nuc ihs ihn =>
    intro ha
    refine directed_read ha (.inl ⟨_, _, _, _, rfl⟩) ?_
    simp only [LTree.Canonical] at ha
    intro g hg
    simp only [LTree.groups] at hg
    have : g = (rel, sat) ∨ g = ([], nuc) := by
      cases left <;> simp [sideParts] at hg <;> tauto
    rcases this with rfl | rfl
    · exact ihs ha.2.1
    · exact ihn ha.2.2
  | h4 rels sats nuc ihs ihn =>
    intro ha
    refine directed_read ha (.inr ⟨_, _, _, rfl⟩) ?_
    simp only [LTree.Canonical, LTree.canonicalAll_iff] at ha
    intro g hg
    simp only [LTree.groups, List.mem_append, List.mem_cons] at hg
    rcases hg with hg | rfl | hg
    · obtain ⟨x, hx, rfl⟩ := sideGroups_mem hg
      exact ihs _ (List.of_mem_zip hx).2 (ha.2.2.2.2.1 _ (List.of_mem_zip hx).2)
    · exact ihn ha.2.2.2.2.2
    · obtain ⟨x, hx, rfl⟩ := sideGroups_mem hg
      exact ihs _ (List.of_mem_zip hx).2 (ha.2.2.2.2.1 _ (List.of_mem_zip hx).2)

end Dg
