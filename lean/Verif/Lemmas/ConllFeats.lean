import Verif.Spec.ConllRead
import Verif.Lemmas.Exmaralda
import Verif.Lemmas.Text

/-! The attributes of a token in the CoNLL reader. -/

namespace Dg
open Dict
namespace DG

/-! ### one piece of a feature string -/

theorem find_addCategory (ns : String) (d : Attrs) (p : List Char) (c : String × List (List Char)) (k : String) :
    find (addCategory ns d p c) k = if p ∈ c.2 ∧ k = qual ns c.1 then some (if c.1 = "person" then .atom (.int (parseDec p)) else strVal (p.map Char.toLower)) else find d k := by
  unfold addCategory
  by_cases h : p ∈ c.2
  · rw [if_pos h, find_put]
    by_cases hk : qual ns c.1 = k
    · rw [if_pos hk, if_pos (show p ∈ c.2 ∧ k = qual ns c.1 from ⟨h, hk.symm⟩)]
    · rw [if_neg hk, if_neg (show ¬ (p ∈ c.2 ∧ k = qual ns c.1) from fun e => hk e.2.symm)]
  · rw [if_neg h, if_neg (fun e => h e.1)]

theorem find_addCategories (ns : String) (p : List Char) (k : String) : ∀ (cs : List (String × List (List Char))) (d : Attrs), (cs.map Prod.fst).Nodup →
    (∃ c ∈ cs, p ∈ c.2 ∧ k = qual ns c.1 ∧ find (cs.foldl (fun d c => addCategory ns d p c) d) k = some (if c.1 = "person" then .atom (.int (parseDec p)) else strVal (p.map Char.toLower))) ∨
    ((∀ c ∈ cs, p ∈ c.2 → k ≠ qual ns c.1) ∧ find (cs.foldl (fun d c => addCategory ns d p c) d) k = find d k)
  | [], d, _ => .inr ⟨by simp, rfl⟩
  | c :: cs, d, hn => by
    rw [List.map_cons, List.nodup_cons] at hn
    rw [List.foldl_cons]
    rcases find_addCategories ns p k cs (addCategory ns d p c) hn.2 with ⟨c', h1, h2, h3, h4⟩ | ⟨h1, h2⟩
    · exact .inl ⟨c', List.mem_cons_of_mem _ h1, h2, h3, h4⟩
    · rw [find_addCategory] at h2
      by_cases hc : p ∈ c.2 ∧ k = qual ns c.1
      · rw [if_pos hc] at h2
        exact .inl ⟨c, by simp, hc.1, hc.2, h2⟩
      · rw [if_neg hc] at h2
        refine .inr ⟨?_, h2⟩
        intro c' hc' hp
        rcases List.mem_cons.1 hc' with rfl | hc'
        · exact fun e => hc ⟨hp, e⟩
        · exact h1 c' hc' hp

theorem morph_names : (morphFeatures.map Prod.fst).Nodup := by decide

theorem mem_ofList {p : List Char} {vs : List String} : String.ofList p ∈ vs ↔ p ∈ vs.map String.toList := by
  rw [List.mem_map]
  constructor
  · intro h; exact ⟨_, h, String.toList_ofList⟩
  · rintro ⟨s, hs, rfl⟩; rwa [String.ofList_toList]

theorem valOnly_iff {p : List Char} {f : String} {v : Val} :
    ValOnly p f v ↔ ∃ c ∈ morphFeatures, p ∈ c.2 ∧ f = c.1 ∧ v = (if c.1 = "person" then .atom (.int (parseDec p)) else strVal (p.map Char.toLower)) := by
  constructor
  · intro h
    cases h with
    | @person n hn hp =>
      refine ⟨("person", [['1'], ['2'], ['3']]), by decide, ?_, rfl, ?_⟩
      · subst hp
        simp only [List.mem_cons, List.not_mem_nil, or_false] at hn
        rcases hn with rfl | rfl | rfl <;> decide +kernel
      · rw [if_pos rfl, hp, parseDec_decimal]
    | @other cat vs hc hv =>
      rw [mem_ofList] at hv
      simp only [List.mem_cons, List.not_mem_nil, or_false, Prod.mk.injEq] at hc
      rcases hc with ⟨rfl, rfl⟩ | ⟨rfl, rfl⟩ | ⟨rfl, rfl⟩ | ⟨rfl, rfl⟩ | ⟨rfl, rfl⟩ | ⟨rfl, rfl⟩ | ⟨rfl, rfl⟩
      · exact ⟨("gender", [['M', 'a', 's', 'c'], ['F', 'e', 'm'], ['N', 'e', 'u', 't']]), by decide, hv, rfl, rfl⟩
      · exact ⟨("number", [['S', 'g'], ['P', 'l']]), by decide, hv, rfl, rfl⟩
      · exact ⟨("case", [['N', 'o', 'm'], ['G', 'e', 'n'], ['D', 'a', 't'], ['A', 'c', 'c']]), by decide, hv, rfl, rfl⟩
      · exact ⟨("degree", [['P', 'o', 's'], ['C', 'o', 'm', 'p'], ['S', 'u', 'p']]), by decide, hv, rfl, rfl⟩
      · exact ⟨("tense", [['P', 'r', 'e', 's'], ['P', 'a', 's', 't']]), by decide, hv, rfl, rfl⟩
      · exact ⟨("mood", [['I', 'n', 'd'], ['S', 'u', 'b', 'j']]), by decide, hv, rfl, rfl⟩
      · exact ⟨("finiteness", [['I', 'n', 'f'], ['P', 's', 'p'], ['I', 'm', 'p'], ['I', 'n', 'f', 'z', 'u']]), by decide, hv, rfl, rfl⟩
  · rintro ⟨c, hc, hp, rfl, rfl⟩
    simp only [morphFeatures, List.mem_cons, List.not_mem_nil, or_false] at hc
    rcases hc with rfl | rfl | rfl | rfl | rfl | rfl | rfl | rfl
    · exact .other (vs := ["Masc", "Fem", "Neut"]) (by decide) (mem_ofList.2 hp)
    · rw [if_pos rfl]
      simp only [List.mem_cons, List.not_mem_nil, or_false] at hp
      rcases hp with rfl | rfl | rfl
      · exact .person (n := 1) (by decide) (by decide +kernel)
      · exact .person (n := 2) (by decide) (by decide +kernel)
      · exact .person (n := 3) (by decide) (by decide +kernel)
    · exact .other (vs := ["Sg", "Pl"]) (by decide) (mem_ofList.2 hp)
    · exact .other (vs := ["Nom", "Gen", "Dat", "Acc"]) (by decide) (mem_ofList.2 hp)
    · exact .other (vs := ["Pos", "Comp", "Sup"]) (by decide) (mem_ofList.2 hp)
    · exact .other (vs := ["Pres", "Past"]) (by decide) (mem_ofList.2 hp)
    · exact .other (vs := ["Ind", "Subj"]) (by decide) (mem_ofList.2 hp)
    · exact .other (vs := ["Inf", "Psp", "Imp", "Infzu"]) (by decide) (mem_ofList.2 hp)

/-- a step of the loop writes what the piece tells, and nothing else -/
def StepSays (ns : String) (tells : List Char → String → Val → Prop) (step : Attrs → List Char → Attrs) : Prop :=
  ∀ d p k, (∃ f v, k = qual ns f ∧ tells p f v ∧ find (step d p) k = some v) ∨ ((∀ f v, k = qual ns f → ¬ tells p f v) ∧ find (step d p) k = find d k)

theorem stepSays_valOnly (ns : String) : StepSays ns ValOnly (fun d v => morphFeatures.foldl (fun d c => addCategory ns d v c) d) := by
  intro d p k
  rcases find_addCategories ns p k morphFeatures d morph_names with ⟨c, h1, h2, h3, h4⟩ | ⟨h1, h2⟩
  · exact .inl ⟨c.1, _, h3, valOnly_iff.2 ⟨c, h1, h2, rfl, rfl⟩, h4⟩
  · refine .inr ⟨?_, h2⟩
    intro f v e h
    obtain ⟨c, h3, h4, rfl, _⟩ := valOnly_iff.1 h
    exact h1 c h3 h4 e

theorem split_eq_pair {p a v : List Char} (h : splitChars '=' p = [a, v]) : p = a ++ '=' :: v ∧ '=' ∉ a ∧ '=' ∉ v := by
  refine ⟨?_, splitChars_mem '=' p a (by rw [h]; simp), splitChars_mem '=' p v (by rw [h]; simp)⟩
  rw [← joinChars_splitChars '=' p, h]
  simp [joinChars]

theorem split_pair {a v : List Char} (ha : '=' ∉ a) (hv : '=' ∉ v) : splitChars '=' (a ++ '=' :: v) = [a, v] := by
  rw [splitChars_append_sep '=' a ha, splitChars_no_sep '=' v hv]

theorem stepSays_attribVal (ns : String) : StepSays ns AttribVal (addAttribVal ns) := by
  intro d p k
  unfold addAttribVal
  split
  · next a v hs =>
    obtain ⟨hp, ha, hv⟩ := split_eq_pair hs
    by_cases hper : a = "person".toList
    · rw [if_pos hper]
      cases hi : pyInt v with
      | some i =>
        simp only
        subst hper
        rw [String.ofList_toList, find_put]
        by_cases hk : qual ns "person" = k
        · rw [if_pos hk]
          exact .inl ⟨"person", _, hk.symm, .person hp hv hi, rfl⟩
        · rw [if_neg hk]
          refine .inr ⟨?_, rfl⟩
          rintro f w rfl h
          cases h with
          | person => exact hk rfl
          | @other b w' hb hb1 hb2 hb3 _ =>
            rw [hb, split_pair hb1 hb2] at hs
            injection hs with hs
            exact hb3 (String.toList_inj.1 hs)
      | none =>
        simp only
        refine .inr ⟨?_, (by first | rfl | simp)⟩
        rintro f w rfl h
        cases h with
        | @person w' i' hw hw1 hw2 =>
          rw [hw, split_pair (by decide) hw1] at hs
          injection hs with _ hs
          injection hs with hs
          rw [hs, hi] at hw2
          cases hw2
        | @other b w' hb hb1 hb2 hb3 _ =>
          rw [hb, split_pair hb1 hb2] at hs
          injection hs with hs
          exact hb3 (String.toList_inj.1 (hs.trans hper))
    · rw [if_neg hper]
      by_cases hstar : v = ['*']
      · rw [if_pos hstar]
        refine .inr ⟨?_, rfl⟩
        rintro f w rfl h
        cases h with
        | @person w' i' hw hw1 hw2 =>
          rw [hw, split_pair (by decide) hw1] at hs
          injection hs with hs
          exact hper hs.symm
        | @other b w' hb hb1 hb2 hb3 hb4 =>
          rw [hb, split_pair hb1 hb2] at hs
          injection hs with _ hs
          injection hs with hs
          exact hb4 (hs.trans hstar)
      · rw [if_neg hstar, find_put]
        by_cases hk : qual ns (String.ofList a) = k
        · rw [if_pos hk]
          refine .inl ⟨String.ofList a, _, hk.symm, .other (by rw [String.toList_ofList]; exact hp) (by rw [String.toList_ofList]; exact ha) hv ?_ hstar, rfl⟩
          intro e
          exact hper (by rw [← e, String.toList_ofList])
        · rw [if_neg hk]
          refine .inr ⟨?_, rfl⟩
          rintro f w rfl h
          cases h with
          | @person w' i' hw hw1 hw2 =>
            rw [hw, split_pair (by decide) hw1] at hs
            injection hs with hs
            exact hper hs.symm
          | @other b w' hb hb1 hb2 hb3 hb4 =>
            rw [hb, split_pair hb1 hb2] at hs
            injection hs with hs
            exact hk (by rw [← hs, String.ofList_toList])
  · next hs =>
    refine .inr ⟨?_, rfl⟩
    rintro f w rfl h
    cases h with
    | @person w' i' hw hw1 hw2 => exact hs _ _ (by rw [hw]; exact split_pair (by decide) hw1)
    | @other b w' hb hb1 hb2 hb3 hb4 => exact hs _ _ (by rw [hb]; exact split_pair hb1 hb2)

/-! ### all pieces -/

theorem foldl_says {ns : String} {tells : List Char → String → Val → Prop} {step : Attrs → List Char → Attrs} (h : StepSays ns tells step) (k : String) : ∀ (ps : List (List Char)) (d : Attrs),
    (∃ pre p post f v, ps = pre ++ p :: post ∧ k = qual ns f ∧ tells p f v ∧ (∀ q ∈ post, ∀ v', ¬ tells q f v') ∧ find (ps.foldl step d) k = some v) ∨
    ((∀ f v, k = qual ns f → ∀ p ∈ ps, ¬ tells p f v) ∧ find (ps.foldl step d) k = find d k)
  | [], d => .inr ⟨by simp, rfl⟩
  | p :: ps, d => by
    rw [List.foldl_cons]
    rcases foldl_says h k ps (step d p) with ⟨pre, q, post, f, v, rfl, h1, h2, h3, h4⟩ | ⟨h1, h2⟩
    · exact .inl ⟨p :: pre, q, post, f, v, rfl, h1, h2, h3, h4⟩
    · rcases h d p k with ⟨f, v, h3, h4, h5⟩ | ⟨h3, h4⟩
      · exact .inl ⟨[], p, ps, f, v, rfl, h3, h4, fun q hq v' => h1 f v' h3 q hq, h2.trans h5⟩
      · refine .inr ⟨?_, h2.trans h4⟩
        intro f v e q hq
        rcases List.mem_cons.1 hq with rfl | hq
        · exact h3 f v e
        · exact h1 f v e q hq

theorem foldl_morph (ns : String) (fs : List Char) (d : Attrs) (k : String) :
    (∃ f v, k = qual ns f ∧ FeatureIs fs f v ∧ find (addMorph ns d fs) k = some v) ∨ ((∀ f v, k = qual ns f → ¬ FeatureIs fs f v) ∧ find (addMorph ns d fs) k = find d k) := by
  have hstep : ∃ step, StepSays ns (PieceSays fs) step ∧ addMorph ns d fs = (splitChars '|' fs).foldl step d := by
    unfold addMorph addValOnly
    by_cases h : '=' ∈ fs
    · rw [if_pos h]
      refine ⟨_, ?_, rfl⟩
      have : PieceSays fs = AttribVal := by funext p f v; unfold PieceSays; rw [if_pos h]
      rw [this]
      exact stepSays_attribVal ns
    · rw [if_neg h]
      refine ⟨_, ?_, rfl⟩
      have : PieceSays fs = ValOnly := by funext p f v; unfold PieceSays; rw [if_neg h]
      rw [this]
      exact stepSays_valOnly ns
  obtain ⟨step, hs, e⟩ := hstep
  rw [e]
  rcases foldl_says hs k (splitChars '|' fs) d with ⟨pre, p, post, f, v, h1, h2, h3, h4, h5⟩ | ⟨h1, h2⟩
  · refine .inl ⟨f, v, h2, ⟨pre, p, post, ?_, ?_, h3, h4⟩, h5⟩
    · rw [← h1, joinChars_splitChars]
    · rw [← h1]; exact fun q hq => splitChars_mem '|' fs q hq
  · refine .inr ⟨?_, h2⟩
    rintro f v e ⟨pre, p, post, h3, h4, h5, _⟩
    have : splitChars '|' fs = pre ++ p :: post := by
      rw [h3]
      exact splitChars_join '|' _ (by simp) h4
    exact h1 f v e p (by rw [this]; simp) h5

theorem attribVal_unique {p : List Char} {f : String} {v v' : Val} (h : AttribVal p f v) (h' : AttribVal p f v') : v = v' := by
  cases h with
  | @person w i h1 h2 h3 =>
    cases h' with
    | @person w' i' h1' h2' h3' =>
      rw [h1'] at h1
      have : w' = w := by
        have := List.append_cancel_left h1
        injection this
      subst this
      rw [h3] at h3'
      rw [Option.some.inj h3']
    | other _ _ _ hne => exact absurd rfl hne
  | @other a w h1 h2 h3 h4 h5 =>
    cases h' with
    | person => exact absurd rfl h4
    | @other a' w' h1' h2' h3' h4' h5' =>
      rw [h1'] at h1
      have := List.append_cancel_left h1
      injection this with _ this
      rw [this]

theorem valOnly_unique {p : List Char} {f : String} {v v' : Val} (h : ValOnly p f v) (h' : ValOnly p f v') : v = v' := by
  obtain ⟨c, _, _, e1, e2⟩ := valOnly_iff.1 h
  obtain ⟨c', _, _, e3, e4⟩ := valOnly_iff.1 h'
  rw [e2, e4, ← e1, ← e3]

theorem pieceSays_unique {fs p : List Char} {f : String} {v v' : Val} (h : PieceSays fs p f v) (h' : PieceSays fs p f v') : v = v' := by
  unfold PieceSays at h h'
  split at h
  · next hc => rw [if_pos hc] at h'; exact attribVal_unique h h'
  · next hc => rw [if_neg hc] at h'; exact valOnly_unique h h'

/-- a feature string gives at most one value to a feature -/
theorem featureIs_unique {fs : List Char} {f : String} {v v' : Val} (h : FeatureIs fs f v) (h' : FeatureIs fs f v') : v = v' := by
  -- read the feature string with the reader
  have key : ∀ w, FeatureIs fs f w → find (addMorph "" [] fs) (qual "" f) = some w := by
    intro w hw
    obtain ⟨pre, p, post, h3, h4, h5, h6⟩ := hw
    have hsp : splitChars '|' fs = pre ++ p :: post := by
      have := splitChars_join '|' (pre ++ p :: post) (by simp) h4
      rwa [← h3] at this
    rcases foldl_morph "" fs [] (qual "" f) with ⟨f', v', e, ⟨pre', p', post', h3', h4', h5', h6'⟩, hf⟩ | ⟨h1, _⟩
    · obtain rfl := qual_inj e
      have hsp' : splitChars '|' fs = pre' ++ p' :: post' := by
        have := splitChars_join '|' (pre' ++ p' :: post') (by simp) h4'
        rwa [← h3'] at this
      rw [hsp] at hsp'
      have : v' = w := by
        rcases List.append_eq_append_iff.1 hsp' with ⟨c, hc1, hc2⟩ | ⟨c, hc1, hc2⟩
        · cases c with
          | nil =>
            rw [List.nil_append] at hc2
            injection hc2 with hc2 _
            subst hc2
            exact pieceSays_unique h5' h5
          | cons x c =>
            injection hc2 with _ hc2
            exact absurd h5' (h6 p' (by rw [hc2]; simp) v')
        · cases c with
          | nil =>
            rw [List.nil_append] at hc2
            injection hc2 with hc2 _
            subst hc2
            exact pieceSays_unique h5' h5
          | cons x c =>
            injection hc2 with _ hc2
            exact absurd h5 (h6' p (by rw [hc2]; simp) w)
      rw [hf, this]
    · exact absurd ⟨pre, p, post, h3, h4, h5, h6⟩ (h1 f w rfl)
  have := (key v h).symm.trans (key v' h')
  exact Option.some.inj this

theorem find_addMorph (ns : String) (fs : List Char) (d : Attrs) (f : String) (v : Val) (h : FeatureIs fs f v) : find (addMorph ns d fs) (qual ns f) = some v := by
  rcases foldl_morph ns fs d (qual ns f) with ⟨f', v', e, h', hf⟩ | ⟨h1, _⟩
  · obtain rfl := qual_inj e
    rw [hf, featureIs_unique h' h]
  · exact absurd h (h1 f v rfl)

theorem find_addMorph_other (ns : String) (fs : List Char) (d : Attrs) (k : String) (h : ∀ f v, k = qual ns f → ¬ FeatureIs fs f v) : find (addMorph ns d fs) k = find d k := by
  rcases foldl_morph ns fs d k with ⟨f', v', e, h', hf⟩ | ⟨_, h2⟩
  · exact absurd h' (h f' v' e)
  · exact h2

/-! ### keys -/

theorem foldl_keys {α : Type} {step : Attrs → α → Attrs} (h : ∀ d x, (keys d).Nodup → (keys (step d x)).Nodup) : ∀ (xs : List α) (d : Attrs), (keys d).Nodup → (keys (xs.foldl step d)).Nodup
  | [], _, hd => hd
  | x :: xs, d, hd => foldl_keys h xs (step d x) (h d x hd)

theorem keys_addMorph (ns : String) (d : Attrs) (fs : List Char) (hd : (keys d).Nodup) : (keys (addMorph ns d fs)).Nodup := by
  unfold addMorph addValOnly
  split
  · refine foldl_keys ?_ _ d hd
    intro d p hd
    unfold addAttribVal
    split
    · split
      · split
        · exact nodup_put hd _ _
        · exact hd
      · split
        · exact hd
        · exact nodup_put hd _ _
    · exact hd
  · refine foldl_keys ?_ _ d hd
    intro d p hd
    refine foldl_keys ?_ _ d hd
    intro d c hd
    unfold addCategory
    split
    · exact nodup_put hd _ _
    · exact hd

/-! ### the attributes of a word -/

/-- the names of the columns do not get in the way of other attributes -/
def ColumnNames (w : Dict String (List Char)) : Prop := (keys w).Nodup ∧ ∀ c ∈ keys w, ':' ∉ c.toList ∧ c ≠ "label" ∧ c ≠ "word_pos" ∧ c ≠ "sent_pos" ∧ c ≠ "layers"

theorem columnNames_zip {cols : List String} (h : cols = conll2009Columns ∨ cols = conll2010Columns) (fs : List (List Char)) : ColumnNames (cols.zip fs) := by
  have hsub : (keys (cols.zip fs)).Sublist cols := by
    have : ∀ (xs : List String) (ys : List (List Char)), (keys (xs.zip ys)).Sublist xs := by
      intro xs
      induction xs with
      | nil => intro ys; exact List.Sublist.refl _
      | cons x xs ih =>
        intro ys
        cases ys with
        | nil => exact List.nil_sublist _
        | cons y ys => exact List.Sublist.cons_cons _ (ih ys)
    exact this cols fs
  have hn : cols.Nodup := by rcases h with rfl | rfl <;> decide
  have hall : ∀ c ∈ cols, ':' ∉ c.toList ∧ c ≠ "label" ∧ c ≠ "word_pos" ∧ c ≠ "sent_pos" ∧ c ≠ "layers" := by rcases h with rfl | rfl <;> decide
  exact ⟨hn.sublist hsub, fun c hc => hall c (hsub.subset hc)⟩

theorem conllFeats_spec {cfg : ConllCfg} {w : Dict String (List Char)} (hw : ColumnNames w) {t n fs : List Char} {i : Int} (ht : find w "token" = some t) (hn : find w "word_id" = some n) (hi : pyInt n = some i)
    (hf : find w cfg.featAttr = some fs) : ∃ a, conllFeats cfg w = .ok a ∧ WordAttrs cfg.ns w fs a ∧ (keys a).Nodup := by
  have hcol : ∀ c v, find w c = some v → ':' ∉ c.toList ∧ c ≠ "label" ∧ c ≠ "word_pos" ∧ c ≠ "sent_pos" ∧ c ≠ "layers" := fun c v h => hw.2 c ((mem_keys_iff _ _).2 ⟨v, h⟩)
  let d0 : Attrs := w.map (fun p => (p.1, strVal p.2))
  let d1 : Attrs := put d0 (qual cfg.ns "token") (strVal t)
  let d2 : Attrs := put d1 "label" (strVal t)
  let d : Attrs := put d2 "word_pos" (.atom (.int i))
  have hd0 : ∀ k, find d0 k = (find w k).map strVal := fun k => find_mapVal w strVal k
  have hlabel : ∀ f, qual cfg.ns f ≠ "label" := fun f => qual_ne_plain (by decide)
  have hpos : ∀ f, qual cfg.ns f ≠ "word_pos" := fun f => qual_ne_plain (by decide)
  have hdk : ∀ k, find d k = if k = "word_pos" then some (.atom (.int i)) else if k = "label" then some (strVal t) else if k = qual cfg.ns "token" then some (strVal t) else (find w k).map strVal := by
    intro k
    simp only [d, d2, d1, find_put, hd0, @eq_comm String _ k]
  have hdcol : ∀ c v, find w c = some v → find d c = some (strVal v) := by
    intro c v h
    obtain ⟨h1, h2, h3, _⟩ := hcol c v h
    rw [hdk, if_neg h3, if_neg h2, if_neg (fun e => qual_ne_plain h1 e.symm), h]
    rfl
  have hplain : ∀ k, ':' ∉ k.toList → find (addMorph cfg.ns d fs) k = find d k := fun k hk => find_addMorph_other _ _ _ _ (fun f v e => absurd e.symm (qual_ne_plain hk))
  refine ⟨addMorph cfg.ns d fs, ?_, ⟨?_, ?_, ?_, ?_, ?_, ?_⟩, ?_⟩
  · unfold conllFeats wordField intOrError
    rw [ht, hn]
    simp only [bind, Except.bind, hi]
    have : featString (put (put (put (w.map fun p => (p.1, strVal p.2)) (qual cfg.ns "token") (strVal t)) "label" (strVal t)) "word_pos" (Val.atom (Atom.int i))) cfg.featAttr = .ok fs := by
      unfold featString
      rw [show find (put (put (put (w.map fun p => (p.1, strVal p.2)) (qual cfg.ns "token") (strVal t)) "label" (strVal t)) "word_pos" (Val.atom (Atom.int i))) cfg.featAttr = some (strVal fs) from hdcol _ _ hf]
      simp [strVal]
    rw [this]
    rfl
  · intro c v h
    rw [hplain c (hcol c v h).1]
    exact hdcol c v h
  · intro t' ht' hno
    rw [ht] at ht'
    obtain rfl := Option.some.inj ht'
    rw [find_addMorph_other]
    · rw [hdk, if_neg (hpos _), if_neg (hlabel _), if_pos rfl]; rfl
    · intro f v e
      obtain rfl := qual_inj e
      exact hno v
  · intro t' ht'
    rw [ht] at ht'
    obtain rfl := Option.some.inj ht'
    rw [hplain _ (by decide), hdk, if_neg (by decide), if_pos rfl]
    rfl
  · intro n' i' hn' hi'
    rw [hn] at hn'
    obtain rfl := Option.some.inj hn'
    rw [hi] at hi'
    obtain rfl := Option.some.inj hi'
    rw [hplain _ (by decide), hdk, if_pos rfl]
  · exact fun f v h => find_addMorph _ _ _ _ _ h
  · intro k v hk
    rcases foldl_morph cfg.ns fs d k with ⟨f, v', e, h', hf'⟩ | ⟨_, h2⟩
    · rw [hk] at hf'
      obtain rfl := Option.some.inj hf'
      exact .inr (.inr (.inr (.inr ⟨f, e, h'⟩)))
    · rw [h2, hdk] at hk
      split at hk
      · next e => exact .inr (.inr (.inr (.inl e)))
      · split at hk
        · next e => exact .inr (.inr (.inl e))
        · split at hk
          · next e => exact .inr (.inl e)
          · left
            cases hx : find w k with
            | none => rw [hx] at hk; cases hk
            | some x => exact ⟨x, rfl⟩
  · apply keys_addMorph
    apply nodup_put
    apply nodup_put
    apply nodup_put
    have : keys d0 = keys w := keys_mapVal w strVal
    show (keys d0).Nodup
    rw [this]
    exact hw.1

end DG
end Dg
