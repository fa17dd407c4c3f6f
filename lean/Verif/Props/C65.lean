import Verif.Lemmas.RstLatexUnique
import Batteries.Lean.Except

/-! C65: LaTeX export of RST trees. -/

namespace Dg
open DG (mapE mapE_ok)

/-- **C65**.  For every structure the exporter can handle the result, apart from line breaks and tabs, is the rst.sty source of that structure: every unit is one
segment with its text, every relation encloses its parts in text order with the relation's name at the satellites (or at the multinuclear node). -/
theorem c65_source_partial (pf : PTree → List Char) (t : LTree) (h : t.Exportable) (fuel level : Nat) (hf : t.depth ≤ fuel) :
    ∃ out, rstLatex pf fuel t.toPTree level = .ok out ∧ flat out = t.tex := by
  obtain ⟨out, h1, h2⟩ := rstLatex_draws (pf := pf) t h fuel level hf
  exact ⟨out, h1, h2.1⟩

/-- an example with all kinds of relations -/
def c65Example : LTree :=
  .multi "joint".toList [.edu "  a  b ".toList, .mono "cause".toList true (.edu "c".toList) (.edu "d".toList),
    .bundle [("cond".toList, true), ("elab".toList, false)] [.edu "e".toList, .edu "g".toList] (.edu "f".toList)]

theorem c65Example_exportable : c65Example.Exportable := by
  unfold c65Example
  simp only [LTree.Exportable, LTree.ExportableAll, LTree.RelName, LTree.Plain, ne_eq, reduceCtorEq, not_false_eq_true, List.head?_cons, Option.mem_def, Option.some.injEq, exists_eq_left']
  (repeat' apply And.intro) <;> decide +kernel

example : ∃ out, rstLatex (fun _ => []) 4 c65Example.toPTree 0 = .ok out ∧ flat out =
    "\\multirel{joint}{\\rstsegment{a b}}{\\dirrel{cause}{\\rstsegment{c}}{}{\\rstsegment{d}}}{\\dirrel{cond}{\\rstsegment{e}}{}{\\rstsegment{f}}{elab}{\\rstsegment{g}}}".toList := by
  obtain ⟨out, h1, h2⟩ := c65_source_partial (fun _ => []) c65Example c65Example_exportable 4 0 (by decide)
  exact ⟨out, h1, h2.trans (by decide +kernel)⟩

theorem tex_not_unit {a : LTree} (h : ∀ s, a ≠ .edu s) : a.tex = a.segment ∧ (dirrelCmd <+: a.tex ∨ multirelCmd <+: a.tex) := by
  cases a with
  | edu s => exact absurd rfl (h s)
  | multi rel kids => exact ⟨by simp only [LTree.tex, LTree.segment], .inr ⟨_, by simp only [LTree.tex, List.append_assoc]; rfl⟩⟩
  | mono rel l s n => exact ⟨by simp only [LTree.tex, LTree.segment], .inl ⟨_, by simp only [LTree.tex]; rfl⟩⟩
  | bundle r s n => exact ⟨by simp only [LTree.tex, LTree.segment], .inl ⟨_, by simp only [LTree.tex]; rfl⟩⟩

theorem tex_injective {a b : LTree} (ea : a.Exportable) (eb : b.Exportable) (ha : a.Canonical) (hb : b.Canonical) (e : a.tex = b.tex) : a = b := by
  have noCmd : ∀ {s : List Char} {c : LTree}, (LTree.edu s).Exportable → (∀ s, c ≠ .edu s) → (LTree.edu s).tex ≠ c.tex := by
    intro s c hs hc he
    simp only [LTree.Exportable] at hs
    simp only [LTree.tex] at he
    rcases (tex_not_unit hc).2 with h | h
    · exact hs.1 (he ▸ h.isInfix)
    · exact hs.2 (he ▸ h.isInfix)
  by_cases h1 : ∃ s, a = .edu s
  · obtain ⟨s, rfl⟩ := h1
    by_cases h2 : ∃ s, b = .edu s
    · obtain ⟨s', rfl⟩ := h2
      simp only [LTree.Canonical] at ha hb
      simp only [LTree.tex, ha.1, hb.1] at e
      rw [e]
    · exact absurd e (noCmd ea (fun s hs => h2 ⟨s, hs⟩))
  · by_cases h2 : ∃ s, b = .edu s
    · obtain ⟨s, rfl⟩ := h2
      exact absurd e.symm (noCmd eb (fun s hs => h1 ⟨s, hs⟩))
    · rw [(tex_not_unit (fun s hs => h1 ⟨s, hs⟩)).1, (tex_not_unit (fun s hs => h2 ⟨s, hs⟩)).1] at e
      exact (readable a ha b hb [] [] (.inl rfl) (.inl rfl) (by rw [List.append_nil, List.append_nil, e])).1

/-- **C65 (nothing is lost)**.  Two structures in normal form with the same export are the same: texts, relation names, nuclearity and nesting can be read off the
LaTeX source. -/
theorem c65_export_is_injective_partial (pf : PTree → List Char) {a b : LTree} (ea : a.Exportable) (eb : b.Exportable) (ha : a.Canonical) (hb : b.Canonical)
    {fuel level : Nat} (fa : a.depth ≤ fuel) (fb : b.depth ≤ fuel) (h : rstLatex pf fuel a.toPTree level = rstLatex pf fuel b.toPTree level) : a = b := by
  obtain ⟨o1, h1, h2⟩ := c65_source_partial pf a ea fuel level fa
  obtain ⟨o2, h3, h4⟩ := c65_source_partial pf b eb fuel level fb
  rw [h1, h3] at h
  have h := Except.ok.inj h
  exact tex_injective ea eb ha hb (by rw [← h2, ← h4, h])

example : ∃ t : LTree, t.Exportable ∧ t.Canonical ∧ t.depth = 4 :=
  ⟨.multi "joint".toList [.edu "a b".toList, .mono "cause".toList true (.edu "c".toList) (.edu "d".toList),
    .bundle [("cond".toList, true), ("elab".toList, false)] [.edu "e".toList, .edu "g".toList] (.edu "f".toList)],
   by simp only [LTree.Exportable, LTree.ExportableAll, LTree.RelName, LTree.Plain, ne_eq, reduceCtorEq, not_false_eq_true, List.head?_cons, Option.mem_def, Option.some.injEq, exists_eq_left']; (repeat' apply And.intro) <;> decide +kernel,
   by simp only [LTree.Canonical, LTree.CanonicalAll]; (repeat' apply And.intro) <;> decide +kernel, by decide⟩

/-- **C65 (malformed input)**.  A relation with a bare unit among its children is rejected. -/
theorem c65_bare_unit_rejected (pf : PTree → List Char) {rel s : List Char} {kids : List PTree} (hr : rel ≠ ['N'] ∧ rel ≠ ['S']) (hs : PTree.leaf s ∈ kids)
    (hn : PTree.none ∉ kids) (fuel level : Nat) : rstLatex pf (fuel + 1) (.node rel kids) level = .error .assertion := by
  have hex : ∃ types, mapE nodeType kids = .ok types ∧ ['e', 'd', 'u'] ∈ types := by
    clear hr
    induction kids with
    | nil => cases hs
    | cons k ks ih =>
      have hn1 : PTree.none ∉ ks := fun h => hn (List.mem_cons_of_mem _ h)
      have hall : ∀ l : List PTree, PTree.none ∉ l → ∃ types, mapE nodeType l = .ok types := by
        intro l hl
        obtain ⟨ys, hys⟩ := forall₂_of_exists (xs := l) (R := fun k t => nodeType k = .ok t) (by
          intro x hx
          cases x with
          | leaf s => exact ⟨_, rfl⟩
          | none => exact absurd hx hl
          | node l k => exact ⟨_, rfl⟩)
        exact ⟨ys, mapE_of_forall hys⟩
      rcases List.mem_cons.1 hs with rfl | hs
      · obtain ⟨ts, hts⟩ := hall ks hn1
        exact ⟨['e', 'd', 'u'] :: ts, by simp only [mapE, nodeType, hts]; rfl, by simp⟩
      · obtain ⟨ts, hts, hm⟩ := ih hs hn1
        obtain ⟨us, hus⟩ := hall [k] (by intro h; simp only [List.mem_singleton] at h; subst h; exact hn (by simp))
        cases k with
        | leaf s => exact ⟨['e', 'd', 'u'] :: ts, by simp only [mapE, nodeType, hts]; rfl, by simp⟩
        | none => exact absurd (by simp) hn
        | node l k => exact ⟨_ :: ts, by simp only [mapE, nodeType, hts]; rfl, List.mem_cons_of_mem _ hm⟩
  obtain ⟨types, h1, h2⟩ := hex
  unfold rstLatex
  simp only []
  rw [if_neg (by rintro (h | h); exact hr.1 h; exact hr.2 h), h1]
  simp only [bind, Except.bind]
  rw [if_pos]
  intro hall
  have := hall _ h2
  revert this; decide

example : rstLatex (fun _ => []) 3 (.node ['r'] [.node ['N'] [.leaf ['a']], .leaf ['b']]) 0 = .error .assertion :=
  c65_bare_unit_rejected _ (by decide) (s := ['b']) (by simp) (by simp) 2 0

theorem indentTab_zero (s : List Char) : indentTab s 0 = s := by
  unfold indentTab
  have : (fun l : List Char => List.replicate 0 '\t' ++ l) = id := by funext l; rfl
  rw [this, List.map_id, latexLines_flatten]; rfl

/-- **C65 (finding)**.  A document that consists of a single segment is exported with a carriage return instead of the backslash of `\rstsegment`, whatever its
text. -/
theorem c65_fails_single_segment (pf : PTree → List Char) (s : List Char) (fuel : Nat) :
    rstLatex pf (fuel + 1) (.node ['N'] [.leaf s]) 0 = .ok ("\rstsegment{".toList ++ s ++ "}".toList) := by
  unfold rstLatex
  simp only []
  rw [if_pos (by simp), indentTab_zero]
  rfl

example : ("\rstsegment{".toList).head? = some '\r' := by decide

/-- the tuples of a bundle whose first relation has its satellite on the right: all satellites are appended -/
theorem sats_all_right (no : List Char) : ∀ (xs : List ((List Char × Bool) × List Char)) (segs : List (List Char)),
    (xs.map (satTuple no)).foldlM (fun st (x : NucSat) => addSatellites x.1 0 0 x.2.1 x.2.2 st) (segs, 0) =
      .ok (segs ++ xs.map (fun x => satTemplate x.1.1 (wrapIfEdu x.2)), 0)
  | [], segs => by simp; rfl
  | x :: xs, segs => by
    have step : addSatellites (satTuple no x).1 0 0 (satTuple no x).2.1 (satTuple no x).2.2 (segs, 0) =
        .ok (segs ++ [satTemplate x.1.1 (wrapIfEdu x.2)], 0) := by
      rcases Bool.eq_false_or_eq_true x.1.2 with hx | hx <;> simp [satTuple, sideTypes, sideParts, hx, addSatellites]
    rw [List.map_cons, List.foldlM_cons, step]
    show (xs.map (satTuple no)).foldlM _ _ = _
    rw [sats_all_right no xs]
    simp

theorem makeMultisat_right (no o : List Char) (r : List Char) (xs : List ((List Char × Bool) × List Char)) (hne : xs ≠ []) :
    makeMultisat (satTuple no ((r, false), o) :: xs.map (satTuple no)) =
      .ok (dirrelCmd ++ (['\n', '\t'] ++ joinChars ['\n', '\t']
        (nucTemplate (wrapIfEdu no) :: (((r, false), o) :: xs).map (fun x => satTemplate x.1.1 (wrapIfEdu x.2))))) := by
  match xs, hne with
  | x :: xs, _ =>
    have hf : firstSegments r (sideTypes false) (sideParts false o no) = .ok [nucTemplate (wrapIfEdu no), satTemplate r (wrapIfEdu o)] := by
      simp [sideTypes, sideParts, firstSegments, latexSegment_nuc, latexSegment_sat, bind, Except.bind]
    have hb2 := sats_all_right no (x :: xs) [nucTemplate (wrapIfEdu no), satTemplate r (wrapIfEdu o)]
    rw [show satTuple no ((r, false), o) = (r, sideTypes false, sideParts false o no) from rfl]
    rw [List.map_cons] at hb2 ⊢
    simp only [makeMultisat]
    rw [if_pos (by decide), hf]
    rw [show List.idxOf ['N'] (sideTypes false) = 0 by decide]
    simp only [bind, Except.bind]
    erw [hb2]
    simp

/-- **C65 (finding)**.  If the first satellite of a bundle follows the nucleus, every other satellite is drawn after the nucleus, too, even if it precedes the
nucleus in the text: the source is that of the bundle with all satellites on the right. -/
theorem c65_fails_first_satellite_on_the_right (pf : PTree → List Char) {r1 : List Char} {rels : List (List Char × Bool)} {sats : List LTree} {nuc : LTree}
    (hr : ∀ r ∈ (r1, false) :: rels, LTree.RelName r.1) (hlen : rels.length + 1 = sats.length) (h2 : rels ≠ []) (hs : LTree.ExportableAll sats)
    (hn : nuc.Exportable) {fuel level : Nat} (hf : (LTree.bundle ((r1, false) :: rels) sats nuc).depth ≤ fuel) :
    ∃ out, rstLatex pf fuel (LTree.bundle ((r1, false) :: rels) sats nuc).toPTree level = .ok out ∧
      flat out = (LTree.bundle ((r1, false) :: rels.map (fun r => (r.1, false))) sats nuc).tex := by
  rw [LTree.exportableAll_iff] at hs
  match fuel, hf with
  | 1, hf => simp only [LTree.depth] at hf; omega
  | fuel + 2, hf =>
    simp only [LTree.depth] at hf
    obtain ⟨outs, ho⟩ := forall₂_of_exists (xs := sats) (R := fun (k : LTree) o => rstLatex pf (fuel + 1) k.toPTree 0 = .ok o ∧ k.Draws o)
      (fun k hk => rstLatex_draws k (hs k hk) (fuel + 1) 0 (by have := LTree.depthAll_le hk; omega))
    obtain ⟨no, h3, h4⟩ := rstLatex_draws (pf := pf) nuc hn (fuel + 1) 0 (by omega)
    have hd : List.Forall₂ LTree.Draws sats outs := ho.imp (fun _ _ h => h.2)
    have hlo : rels.length + 1 = outs.length := hlen.trans ho.length_eq
    match outs, sats, hlo, ho, hd, hs, hlen with
    | o :: os, k :: ks, hlo, ho, hd, hs, hlen =>
      have hz : rels.zip os ≠ [] := by
        intro h
        have := congrArg List.length h
        simp only [List.length_zip, List.length_cons, List.length_nil] at this hlo
        have : rels.length ≠ 0 := fun h => h2 (List.length_eq_zero_iff.1 h)
        omega
      have hm := makeMultisat_right no o r1 (rels.zip os) hz
      have hstep := rstLatex_bundle_step (pf := pf) (level := level) (rels := (r1, false) :: rels) (by simpa using hlen)
        (by have : rels.length ≠ 0 := fun h => h2 (List.length_eq_zero_iff.1 h)
            simp only [List.length_cons]; omega) ho h3 (by
          intro x hx
          have hx1 := (List.of_mem_zip hx).1
          have hx2 := (List.of_mem_zip hx).2
          obtain ⟨so, e1, e2⟩ := rstLatex_draws (pf := pf) x.2 (hs _ hx2) fuel (level + 1 + 1) (by have := LTree.depthAll_le hx2; omega)
          obtain ⟨no', e5, e6⟩ := rstLatex_draws (pf := pf) nuc hn fuel (level + 1 + 1) (by omega)
          obtain ⟨o, e7, _⟩ := rstLatex_mono (left := x.1.2) (hr x.1 hx1) e1 e5 e2 e6
          exact ⟨o, e7⟩) hm
      refine ⟨_, hstep, ?_⟩
      rw [flat_indentTab]
      have hflat := flat_sideSegs false (rels := (r1, false) :: rels.map (fun r => (r.1, false))) (by
        intro r hrm
        rcases List.mem_cons.1 hrm with rfl | hrm
        · exact (hr _ (by simp)).1
        · obtain ⟨q, hq, rfl⟩ := List.mem_map.1 hrm
          exact (hr q (List.mem_cons_of_mem _ hq)).1) hd
      have hnone : LTree.texSats true ((r1, false) :: rels.map (fun r => (r.1, false))) (k :: ks) = [] := by
        rw [← flat_sideSegs true (by
          intro r hrm
          rcases List.mem_cons.1 hrm with rfl | hrm
          · exact (hr _ (by simp)).1
          · obtain ⟨q, hq, rfl⟩ := List.mem_map.1 hrm
            exact (hr q (List.mem_cons_of_mem _ hq)).1) hd]
        unfold sideSegs
        rw [List.flatMap_eq_nil_iff]
        intro x hx
        exfalso
        obtain ⟨y, hy, hx⟩ := List.mem_flatMap.1 hx
        have := (List.of_mem_zip hy).1
        rw [if_neg] at hx
        · cases hx
        · rcases List.mem_cons.1 this with h | h
          · rw [h]; simp
          · obtain ⟨q, _, h⟩ := List.mem_map.1 h
            rw [← h]; simp
      have hseg : sideSegs false (((r1, false) :: rels.map (fun r => (r.1, false))).zip (o :: os)) =
          (((r1, false), o) :: rels.zip os).map (fun x => satTemplate x.1.1 (wrapIfEdu x.2)) := by
        rw [List.zip_cons_cons]
        unfold sideSegs
        rw [List.flatMap_cons, List.map_cons, if_pos rfl, List.zip_map_left, List.flatMap_map, List.map_eq_flatMap (l := rels.zip os)]
        rfl
      simp only [LTree.tex, hnone, ← hflat, hseg, ← flat_nuc h4]
      simp only [flat_append, flat_join, List.flatMap_cons]
      simp [flat, dirrelCmd]

example : ∃ out, rstLatex (fun _ => []) 3 (LTree.bundle [("elab".toList, false), ("cond".toList, true)] [.edu ['g'], .edu ['e']] (.edu ['f'])).toPTree 0 = .ok out ∧
    flat out = "\\dirrel{}{\\rstsegment{f}}{elab}{\\rstsegment{g}}{cond}{\\rstsegment{e}}".toList := by
  obtain ⟨out, h1, h2⟩ := c65_fails_first_satellite_on_the_right (fun _ => []) (r1 := "elab".toList) (rels := [("cond".toList, true)])
    (sats := [.edu ['g'], .edu ['e']]) (nuc := .edu ['f']) (by simp only [LTree.RelName, LTree.Plain, ne_eq, reduceCtorEq, not_false_eq_true, List.head?_cons, Option.mem_def, Option.some.injEq, exists_eq_left']; decide +kernel) rfl (by simp)
    (by simp only [LTree.ExportableAll, LTree.Exportable]; decide +kernel) (by simp only [LTree.Exportable]; decide +kernel) (fuel := 3) (level := 0) (by decide)
  exact ⟨out, h1, h2.trans (by decide +kernel)⟩

/-- **C65 (finding)**.  A unit whose text contains one of the two commands is not marked as a segment. -/
theorem c65_fails_command_in_text (pf : PTree → List Char) {rel s : List Char} (hr : LTree.RelName rel)
    (hs : "\\dirrel".toList <:+: LTree.unitText s ∨ "\\multirel".toList <:+: LTree.unitText s) (fuel : Nat) :
    ∃ out, rstLatex pf (fuel + 2) (.node rel [.node ['N'] [.leaf s]]) 0 = .ok out ∧
      flat out = "\\multirel{".toList ++ rel ++ "}{".toList ++ LTree.unitText s ++ "}".toList := by
  have he : isEduSegment (LTree.unitText s) = false := by
    unfold isEduSegment
    rw [decide_eq_false_iff_not]
    rintro ⟨h1, h2⟩
    rcases hs with h | h
    · exact h1 h
    · exact h2 h
  refine ⟨makeMultinuc rel [LTree.unitText s], ?_, ?_⟩
  · unfold rstLatex
    simp only []
    rw [if_neg (by rintro (h | h); exact hr.2.1 h; exact hr.2.2.1 h)]
    have h1 : mapE nodeType [PTree.node ['N'] [PTree.leaf s]] = .ok [['N']] := rfl
    have h2 : mapE (fun k => rstLatex pf (fuel + 1) k (0 + 1)) ([PTree.node ['N'] [PTree.leaf s]].flatMap ptreeKids) = .ok [LTree.unitText s] := by
      apply mapE_of_forall
      refine .cons ?_ .nil
      unfold rstLatex
      rfl
    rw [h1]
    simp only [bind, Except.bind]
    rw [if_neg (by simp)]
    erw [h2]
    dsimp only
    rw [if_pos (by simp), indentTab_zero]
  · unfold makeMultinuc wrapIfEdu
    simp only [List.map_cons, List.map_nil, he, flat_append, flat_join, List.flatMap_cons, flat_plain hr.1, if_false, Bool.false_eq_true]
    have := flat_plain (unitText_plain s)
    simp [flat, multirelCmd] at this ⊢
    exact this

example : ∃ out, rstLatex (fun _ => []) 2 (.node ['r'] [.node ['N'] [.leaf "see \\dirrel".toList]]) 0 = .ok out ∧ flat out = "\\multirel{r}{see \\dirrel}".toList := by
  obtain ⟨out, h1, h2⟩ := c65_fails_command_in_text (fun _ => []) (rel := ['r']) (s := "see \\dirrel".toList)
    (by simp only [LTree.RelName, LTree.Plain, ne_eq, reduceCtorEq, not_false_eq_true, List.head?_cons, Option.mem_def, Option.some.injEq, exists_eq_left']; decide +kernel) (by decide +kernel) 0
  exact ⟨out, h1, h2.trans (by decide +kernel)⟩

/-- **C65 (finding)**.  Braces in texts are not escaped, so that different structures have the same source. -/
theorem c65_fails_braces : ∃ a b : LTree, a ≠ b ∧ a.Exportable ∧ b.Exportable ∧
    ∀ (pf : PTree → List Char) (fuel level : Nat), 2 ≤ fuel → ∃ out out', rstLatex pf fuel a.toPTree level = .ok out ∧ rstLatex pf fuel b.toPTree level = .ok out' ∧
      flat out = flat out' := by
  have ea : (LTree.multi "r".toList [.edu "a".toList, .edu "b".toList]).Exportable := by
    simp only [LTree.Exportable, LTree.ExportableAll, LTree.RelName, LTree.Plain, ne_eq, reduceCtorEq, not_false_eq_true, List.head?_cons, Option.mem_def, Option.some.injEq, exists_eq_left']; decide +kernel
  have eb : (LTree.multi "r".toList [.edu "a}}{\\rstsegment{b".toList]).Exportable := by
    simp only [LTree.Exportable, LTree.ExportableAll, LTree.RelName, LTree.Plain, ne_eq, reduceCtorEq, not_false_eq_true, List.head?_cons, Option.mem_def, Option.some.injEq, exists_eq_left']; decide +kernel
  refine ⟨_, _, ?_, ea, eb, ?_⟩
  · intro h
    have := congrArg LTree.groups h
    injection h with h1 h2
    simp at h2
  · intro pf fuel level hf
    obtain ⟨o1, h1, h2⟩ := c65_source_partial pf _ ea fuel level (by simpa [LTree.depth, LTree.depthAll] using hf)
    obtain ⟨o2, h3, h4⟩ := c65_source_partial pf _ eb fuel level (by simpa [LTree.depth, LTree.depthAll] using hf)
    exact ⟨o1, o2, h1, h3, by rw [h2, h4]; decide +kernel⟩

end Dg
