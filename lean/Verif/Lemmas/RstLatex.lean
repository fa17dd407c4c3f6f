/-
Lemmas about the LaTeX export of RST trees.
-/
import Verif.Spec.RstLatex
import Verif.Lemmas.Dis
import Verif.Lemmas.Chains
import Verif.Lemmas.ConllText
import Verif.Lemmas.Forall2

namespace Dg
open DG (mapE mapE_ok)

theorem flat_append (a b : List Char) : flat (a ++ b) = flat a ++ flat b := List.filter_append ..

theorem flat_plain {s : List Char} (h : LTree.Plain s) : flat s = s := by
  unfold flat
  rw [List.filter_eq_self]
  intro c hc
  simp only [decide_eq_true_eq]
  exact ⟨fun e => h.1 (e ▸ hc), fun e => h.2 (e ▸ hc)⟩

theorem flat_tabs (n : Nat) : flat (List.replicate n '\t') = [] := by
  unfold flat
  rw [List.filter_eq_nil_iff]
  intro c hc
  rw [List.eq_of_mem_replicate hc]
  decide

theorem latexLines_flatten : ∀ (s cur : List Char), (latexLinesAux cur s).flatten = cur.reverse ++ s := by
  intro s
  induction s with
  | nil =>
    intro cur
    simp only [latexLinesAux]
    split
    · next h => subst h; rfl
    · simp
  | cons c r ih =>
    intro cur
    simp only [latexLinesAux]
    split
    · rw [List.flatten_cons, ih]; simp
    · rw [ih]; simp

theorem flat_flatten_tabs (n : Nat) (ls : List (List Char)) : flat ((ls.map (fun l => List.replicate n '\t' ++ l)).flatten) = flat ls.flatten := by
  induction ls with
  | nil => rfl
  | cons l ls ih =>
    rw [List.map_cons, List.flatten_cons, List.flatten_cons, flat_append, flat_append, flat_append, flat_tabs, ih]; rfl

/-- indentation only adds tabs -/
theorem flat_indentTab (s : List Char) (n : Nat) : flat (indentTab s n) = flat s := by
  unfold indentTab
  rw [flat_flatten_tabs, latexLines_flatten]; rfl

theorem latexLines_prefix : ∀ (p r cur : List Char), (∀ c ∈ p, isLineBreak c = false) → cur ++ p ≠ [] →
    ∃ l ls, latexLinesAux cur (p ++ r) = l :: ls ∧ (cur.reverse ++ p) <+: l := by
  intro p
  induction p with
  | nil =>
    intro r
    induction r with
    | nil =>
      intro cur _ h
      have : cur ≠ [] := by simpa using h
      exact ⟨cur.reverse, [], by simp [latexLinesAux, this], by simp⟩
    | cons c r ih =>
      intro cur hp h
      simp only [List.nil_append, latexLinesAux]
      split
      · exact ⟨_, _, rfl, by simp⟩
      · obtain ⟨l, ls, h1, h2⟩ := ih (c :: cur) hp (by simp)
        refine ⟨l, ls, h1, ?_⟩
        refine List.IsPrefix.trans ?_ h2
        simp
  | cons c p ih =>
    intro r cur hp h
    rw [List.cons_append]
    simp only [latexLinesAux]
    rw [if_neg (by intro hh; have := hp c (by simp); rw [this] at hh; simp at hh)]
    obtain ⟨l, ls, h1, h2⟩ := ih r (c :: cur) (fun x hx => hp x (List.mem_cons_of_mem _ hx)) (by simp)
    refine ⟨l, ls, h1, ?_⟩
    simpa using h2

theorem indentTab_infix {p r : List Char} (n : Nat) (hp : ∀ c ∈ p, isLineBreak c = false) (hne : p ≠ []) : p <:+: indentTab (p ++ r) n := by
  obtain ⟨l, ls, h1, h2⟩ := latexLines_prefix p r [] hp (by simpa using hne)
  unfold indentTab
  rw [h1, List.map_cons, List.flatten_cons]
  obtain ⟨q, rfl⟩ := h2
  exact ⟨List.replicate n '\t', q ++ (ls.map fun l => List.replicate n '\t' ++ l).flatten, by simp⟩

/-- what is drawn for a relation is recognised as a subtree -/
theorem not_edu_dirrel (r : List Char) (n : Nat) : isEduSegment (indentTab (dirrelCmd ++ r) n) = false := by
  unfold isEduSegment
  rw [decide_eq_false_iff_not]
  intro h
  exact h.1 (indentTab_infix n (by decide) (by decide))

theorem not_edu_multirel (r : List Char) (n : Nat) : isEduSegment (indentTab (multirelCmd ++ r) n) = false := by
  unfold isEduSegment
  rw [decide_eq_false_iff_not]
  intro h
  exact h.2 (indentTab_infix n (by decide) (by decide))

theorem unitText_plain (s : List Char) : LTree.Plain (LTree.unitText s) := by
  unfold LTree.Plain LTree.unitText
  have key : ∀ c ∈ joinChars [' '] (splitWs s), c = ' ' ∨ isUniSpace c = false := by
    intro c hc
    rcases joinChars_mem hc with h | ⟨w, hw, hcw⟩
    · left; simpa using h
    · right; exact (splitWs_mem hw).2 _ hcw
  constructor
  · intro h; rcases key _ h with h | h <;> revert h <;> decide
  · intro h; rcases key _ h with h | h <;> revert h <;> decide

namespace LTree

theorem ind {P : LTree → Prop} (h1 : ∀ s, P (.edu s)) (h2 : ∀ rel kids, (∀ k ∈ kids, P k) → P (.multi rel kids))
    (h3 : ∀ rel left sat nuc, P sat → P nuc → P (.mono rel left sat nuc))
    (h4 : ∀ rels sats nuc, (∀ k ∈ sats, P k) → P nuc → P (.bundle rels sats nuc)) : ∀ t, P t :=
  fun t => LTree.rec (motive_1 := P) (motive_2 := fun l => ∀ k ∈ l, P k) h1 h2 h3 h4 (fun _ h => by cases h)
    (fun a l ha hl k hk => by rcases List.mem_cons.1 hk with rfl | hk; exact ha; exact hl k hk) t

/-- the output `out` draws the structure `t` and is recognised as a unit or a subtree -/
def Draws (t : LTree) (out : List Char) : Prop := flat out = t.tex ∧ (isEduSegment out = true ↔ ∃ s, t = .edu s)

theorem Draws.wrap {t : LTree} {out : List Char} (h : Draws t out) : flat (wrapIfEdu out) = t.segment := by
  unfold wrapIfEdu
  split
  · next he =>
    obtain ⟨s, rfl⟩ := h.2.1 he
    unfold wrapEduSegment
    rw [flat_append, flat_append, h.1]
    simp only [tex, segment]
    rfl
  · next he =>
    have : ∀ s, t ≠ .edu s := fun s hs => he (h.2.2 ⟨s, hs⟩)
    rw [h.1]
    cases t with
    | edu s => exact absurd rfl (this s)
    | _ => simp only [tex, segment]

theorem exportableAll_iff : ∀ l : List LTree, ExportableAll l ↔ ∀ k ∈ l, k.Exportable
  | [] => by simp [ExportableAll]
  | k :: ks => by simp [ExportableAll, exportableAll_iff ks]

theorem depthAll_le : ∀ {l : List LTree} {k : LTree}, k ∈ l → k.depth ≤ depthAll l
  | a :: l, k, h => by
    rcases List.mem_cons.1 h with rfl | h
    · exact Nat.le_max_left _ _
    · exact Nat.le_trans (depthAll_le h) (Nat.le_max_right _ _)

theorem toPTrees_eq (l : List LTree) : toPTrees l = l.map (fun k => .node ['N'] [k.toPTree]) := by
  induction l with
  | nil => rfl
  | cons k l ih => simp only [toPTrees, ih, List.map_cons]

theorem texNuclei_eq (l : List LTree) : texNuclei l = l.flatMap (fun k => ['{'] ++ k.segment ++ ['}']) := by
  induction l with
  | nil => rfl
  | cons k l ih => simp only [texNuclei, ih, List.flatMap_cons]

end LTree

theorem flat_join (xs : List (List Char)) : flat (joinChars ['\n', '\t'] xs) = xs.flatMap flat := by
  induction xs with
  | nil => rfl
  | cons x xs ih =>
    cases xs with
    | nil => simp [joinChars]
    | cons y ys =>
      rw [joinChars, flat_append, flat_append, ih]
      simp [flat]

theorem flat_multinuc {rel : List Char} (hr : LTree.Plain rel) {ks : List LTree} {outs : List (List Char)} (h : List.Forall₂ LTree.Draws ks outs) :
    flat (makeMultinuc rel outs) = (LTree.multi rel ks).tex := by
  unfold makeMultinuc
  simp only [flat_append, flat_join, flat_plain hr, LTree.tex, LTree.texNuclei_eq]
  have h2 : (outs.map (fun n => ['{'] ++ wrapIfEdu n ++ ['}'])).flatMap flat = ks.flatMap (fun k => ['{'] ++ k.segment ++ ['}']) := by
    clear hr
    induction h with
    | nil => rfl
    | cons hd _ ih =>
      simp only [List.map_cons, List.flatMap_cons, ih, flat_append, hd.wrap]
      rfl
  rw [h2]
  rfl


theorem latexSegment_nuc (rel e : List Char) : latexSegment rel ['N'] e = nucTemplate (wrapIfEdu e) := by simp [latexSegment]

theorem latexSegment_sat (rel e : List Char) : latexSegment rel ['S'] e = satTemplate rel (wrapIfEdu e) := by simp [latexSegment]

theorem flat_nuc {t : LTree} {out : List Char} (h : t.Draws out) : flat (nucTemplate (wrapIfEdu out)) = LTree.nucGroup t.segment := by
  unfold nucTemplate LTree.nucGroup
  rw [flat_append, flat_append, h.wrap]; rfl

theorem flat_sat {rel : List Char} (hr : LTree.Plain rel) {t : LTree} {out : List Char} (h : t.Draws out) :
    flat (satTemplate rel (wrapIfEdu out)) = LTree.satGroup rel t.segment := by
  unfold satTemplate LTree.satGroup
  simp only [flat_append, h.wrap, flat_plain hr]; rfl

/-- the nuclearity of the parts of a relation -/
def sideTypes (left : Bool) : List (List Char) := if left then [['S'], ['N']] else [['N'], ['S']]

/-- the parts of a relation in their order -/
def sideParts {α : Type} (left : Bool) (sat nuc : α) : List α := if left then [sat, nuc] else [nuc, sat]

theorem nucSatNode_eq (rel : List Char) (left : Bool) (sat nuc : PTree) : LTree.nucSatNode rel left sat nuc =
    .node rel (sideParts left (.node ['S'] [sat]) (.node ['N'] [nuc])) := by
  unfold LTree.nucSatNode sideParts; rfl

theorem makeNucsat_ok {rel : List Char} (hr : LTree.Plain rel) (left : Bool) {sat nuc : LTree} {so no : List Char} (hs : sat.Draws so) (hn : nuc.Draws no) :
    ∃ r, makeNucsat rel (sideTypes left) (sideParts left so no) = .ok (dirrelCmd ++ r) ∧ flat (dirrelCmd ++ r) = (LTree.mono rel left sat nuc).tex := by
  cases left
  · refine ⟨_, by simp [makeNucsat, sideTypes, sideParts, latexSegment_nuc, latexSegment_sat]; rfl, ?_⟩
    simp only [flat_append, flat_nuc hn, LTree.tex]
    have h1 : flat ('\n' :: '\t' :: (nucTemplate (wrapIfEdu no) ++ '\n' :: '\t' :: satTemplate rel (wrapIfEdu so))) =
        LTree.nucGroup nuc.segment ++ LTree.satGroup rel sat.segment := by
      rw [← flat_nuc hn, ← flat_sat hr hs, ← flat_append]
      simp [flat]
    rw [h1]; rfl
  · refine ⟨_, by simp [makeNucsat, sideTypes, sideParts, latexSegment_nuc, latexSegment_sat]; rfl, ?_⟩
    simp only [flat_append, flat_nuc hn, LTree.tex]
    have h1 : flat ('\n' :: '\t' :: (satTemplate rel (wrapIfEdu so) ++ '\n' :: '\t' :: nucTemplate (wrapIfEdu no))) =
        LTree.satGroup rel sat.segment ++ LTree.nucGroup nuc.segment := by
      rw [← flat_nuc hn, ← flat_sat hr hs, ← flat_append]
      simp [flat]
    rw [h1]; rfl

/-- a relation of a bundle with the drawn satellite, as a tuple -/
def satTuple (no : List Char) (x : (List Char × Bool) × List Char) : NucSat := (x.1.1, sideTypes x.1.2, sideParts x.1.2 x.2 no)

/-- the segments on one side -/
def sideSegs (side : Bool) (xs : List ((List Char × Bool) × List Char)) : List (List Char) :=
  xs.flatMap (fun x => if x.1.2 = side then [satTemplate x.1.1 (wrapIfEdu x.2)] else [])

theorem sats_right (no : List Char) : ∀ (xs : List ((List Char × Bool) × List Char)) (segs : List (List Char)), (∀ x ∈ xs, x.1.2 = false) →
    (xs.map (satTuple no)).foldlM (fun st (x : NucSat) => addSatellites x.1 0 0 x.2.1 x.2.2 st) (segs, 0) = .ok (segs ++ sideSegs false xs, 0)
  | [], segs, _ => by simp [sideSegs]; rfl
  | x :: xs, segs, h => by
    have hx := h x (by simp)
    have step : addSatellites (satTuple no x).1 0 0 (satTuple no x).2.1 (satTuple no x).2.2 (segs, 0) =
        .ok (segs ++ [satTemplate x.1.1 (wrapIfEdu x.2)], 0) := by
      simp [satTuple, sideTypes, sideParts, hx, addSatellites]
    rw [List.map_cons, List.foldlM_cons, step]
    show (xs.map (satTuple no)).foldlM _ _ = _
    rw [sats_right no xs _ (fun y hy => h y (List.mem_cons_of_mem _ hy))]
    simp [sideSegs, hx]

theorem sats_both (no n : List Char) : ∀ (xs : List ((List Char × Bool) × List Char)) (B A : List (List Char)),
    (xs.map (satTuple no)).foldlM (fun st (x : NucSat) => addSatellites x.1 1 0 x.2.1 x.2.2 st) (B ++ n :: A, B.length) =
      .ok (B ++ sideSegs true xs ++ n :: (A ++ sideSegs false xs), (B ++ sideSegs true xs).length)
  | [], B, A => by simp [sideSegs]; rfl
  | x :: xs, B, A => by
    rcases Bool.eq_false_or_eq_true x.1.2 with hx | hx
    · have step : addSatellites (satTuple no x).1 1 0 (satTuple no x).2.1 (satTuple no x).2.2 (B ++ n :: A, B.length) =
          .ok ((B ++ [satTemplate x.1.1 (wrapIfEdu x.2)]) ++ n :: A, (B ++ [satTemplate x.1.1 (wrapIfEdu x.2)]).length) := by
        simp [satTuple, sideTypes, sideParts, hx, addSatellites]
      rw [List.map_cons, List.foldlM_cons, step]
      show (xs.map (satTuple no)).foldlM _ _ = _
      rw [sats_both no n xs]
      simp [sideSegs, hx]
    · have step : addSatellites (satTuple no x).1 1 0 (satTuple no x).2.1 (satTuple no x).2.2 (B ++ n :: A, B.length) =
          .ok (B ++ n :: (A ++ [satTemplate x.1.1 (wrapIfEdu x.2)]), B.length) := by
        simp [satTuple, sideTypes, sideParts, hx, addSatellites]
      rw [List.map_cons, List.foldlM_cons, step]
      show (xs.map (satTuple no)).foldlM _ _ = _
      rw [sats_both no n xs]
      simp [sideSegs, hx]

theorem flat_sideSegs (side : Bool) : ∀ {rels : List (List Char × Bool)} {sats : List LTree} {outs : List (List Char)}, (∀ r ∈ rels, LTree.Plain r.1) →
    List.Forall₂ LTree.Draws sats outs → (sideSegs side (rels.zip outs)).flatMap flat = LTree.texSats side rels sats
  | [], sats, outs, _, _ => by simp [sideSegs, LTree.texSats]
  | r :: rs, _, _, _, .nil => by simp [sideSegs, LTree.texSats]
  | r :: rs, k :: ks, o :: os, h, .cons hd tl => by
    have ih := flat_sideSegs side (rels := rs) (fun x hx => h x (List.mem_cons_of_mem _ hx)) tl
    have hr := flat_sat (h r (by simp)) hd
    simp only [List.zip_cons_cons, LTree.texSats]
    unfold sideSegs at ih ⊢
    rw [List.flatMap_cons, List.flatMap_append, ih]
    split <;> simp [hr]

theorem makeMultisat_ok {rels : List (List Char × Bool)} {sats : List LTree} {nuc : LTree} {outs : List (List Char)} {no : List Char}
    (hr : ∀ r ∈ rels, LTree.Plain r.1) (hlen : rels.length = sats.length) (h2 : 2 ≤ rels.length)
    (hside : (∃ r ∈ rels.head?, r.2 = true) ∨ ∀ r ∈ rels, r.2 = false) (hs : List.Forall₂ LTree.Draws sats outs) (hn : nuc.Draws no) :
    ∃ r, makeMultisat ((rels.zip outs).map (satTuple no)) = .ok (dirrelCmd ++ r) ∧ flat (dirrelCmd ++ r) = (LTree.bundle rels sats nuc).tex := by
  have hl2 : rels.length = outs.length := hlen.trans hs.length_eq
  have e1 := flat_sideSegs true hr hs
  have e2 := flat_sideSegs false hr hs
  match rels, outs, hl2, h2, hside, e1, e2 with
  | r1 :: r2 :: rs, o1 :: o2 :: os, _, _, hside, e1, e2 =>
    simp only [LTree.tex, ← e1, ← e2, ← flat_nuc hn]
    rcases Bool.eq_false_or_eq_true r1.2 with hb | hb
    · refine ⟨['\n', '\t'] ++ joinChars ['\n', '\t'] (sideSegs true ((r1 :: r2 :: rs).zip (o1 :: o2 :: os)) ++
          nucTemplate (wrapIfEdu no) :: sideSegs false ((r1 :: r2 :: rs).zip (o1 :: o2 :: os))), ?_, ?_⟩
      · have hf : firstSegments r1.1 (sideTypes true) (sideParts true o1 no) = .ok ([satTemplate r1.1 (wrapIfEdu o1)] ++ nucTemplate (wrapIfEdu no) :: []) := by
          simp [sideTypes, sideParts, firstSegments, latexSegment_nuc, latexSegment_sat, bind, Except.bind]
        have hb2 := sats_both no (nucTemplate (wrapIfEdu no)) ((r2 :: rs).zip (o2 :: os)) [satTemplate r1.1 (wrapIfEdu o1)] []
        have hx : satTuple no (r1, o1) = (r1.1, sideTypes true, sideParts true o1 no) := by unfold satTuple; simp only [hb]
        rw [List.zip_cons_cons, List.map_cons, hx]
        rw [List.zip_cons_cons, List.map_cons] at hb2 ⊢
        simp only [makeMultisat]
        rw [if_pos (by decide), hf]
        rw [show List.idxOf ['N'] (sideTypes true) = 1 by decide]
        simp only [bind, Except.bind]
        erw [hb2]
        simp [sideSegs, hb]
      · simp only [flat_append, flat_join, List.flatMap_append, List.flatMap_cons]
        simp [flat, dirrelCmd]
    · have hall : ∀ r ∈ r1 :: r2 :: rs, r.2 = false := by
        rcases hside with ⟨r, hr', h'⟩ | h
        · simp only [List.head?_cons, Option.mem_def, Option.some.injEq] at hr'; subst hr'; rw [hb] at h'; cases h'
        · exact h
      have hz : ∀ x ∈ (r1 :: r2 :: rs).zip (o1 :: o2 :: os), x.1.2 = false := fun x hx => hall _ (List.of_mem_zip hx).1
      have hno : sideSegs true ((r1 :: r2 :: rs).zip (o1 :: o2 :: os)) = [] := by
        unfold sideSegs
        rw [List.flatMap_eq_nil_iff]
        intro x hx
        rw [if_neg (by rw [hz x hx]; decide)]
      refine ⟨['\n', '\t'] ++ joinChars ['\n', '\t'] (nucTemplate (wrapIfEdu no) :: sideSegs false ((r1 :: r2 :: rs).zip (o1 :: o2 :: os))), ?_, ?_⟩
      · have hf : firstSegments r1.1 (sideTypes false) (sideParts false o1 no) = .ok [nucTemplate (wrapIfEdu no), satTemplate r1.1 (wrapIfEdu o1)] := by
          simp [sideTypes, sideParts, firstSegments, latexSegment_nuc, latexSegment_sat, bind, Except.bind]
        have hb2 := sats_right no ((r2 :: rs).zip (o2 :: os)) [nucTemplate (wrapIfEdu no), satTemplate r1.1 (wrapIfEdu o1)]
          (fun x hx => hz x (by rw [List.zip_cons_cons]; exact List.mem_cons_of_mem _ hx))
        have hx : satTuple no (r1, o1) = (r1.1, sideTypes false, sideParts false o1 no) := by unfold satTuple; simp only [hb]
        rw [List.zip_cons_cons, List.map_cons, hx]
        rw [List.zip_cons_cons, List.map_cons] at hb2 ⊢
        simp only [makeMultisat]
        rw [if_pos (by decide), hf]
        rw [show List.idxOf ['N'] (sideTypes false) = 0 by decide]
        simp only [bind, Except.bind]
        erw [hb2]
        simp [sideSegs, hb]
      · rw [hno]
        simp only [flat_append, flat_join, List.flatMap_append, List.flatMap_cons]
        simp [flat, dirrelCmd]

end Dg
