import Batteries.Lean.Except
import Verif.Lemmas.Brat
import Verif.Props.C13
import Batteries.Data.List.Perm

/-! C38: the brat export. -/

namespace Dg
open Dict
namespace DG

/-- hypotheses of C38: every mention in a chain has a span attribute that stands for at least one token, and these tokens are tokens of the document -/
def SpansGiven (g : DG) (ns : String) (chains : List (List NodeId)) (span : NodeId → List NodeId) : Prop :=
  ∀ m ∈ chains.flatten, g.MarksTokens ns m (span m) ∧ span m ≠ [] ∧ ∀ t ∈ span m, t ∈ g.tokens

/-- **C38 (the lines)**.  For every document whose tokens are pairwise different nodes with token strings, and every list of chains of markables with spans: the export
succeeds; there is one T line per occurrence of a markable in a chain and no other T line; the T line starts where the first token of the markable starts in the text, and its text is
the text of the tokens of the markable; different markables have different T numbers; the R lines connect the neighbours in each chain, from the last to the first
mention (in natural order), by the T numbers of these markables. -/
theorem c38_lines (g : DG) (ns : String) (chains : List (List NodeId)) (strs : List String) (span : NodeId → List NodeId) (ht : g.HasTokens strs) (nd : g.tokens.Nodup)
    (hs : g.SpansGiven ns chains span) (rels : Bool) :
    ∃ ts rs, ∃ line : NodeId → TLine, g.bratLines ns chains rels = .ok (ts, rs) ∧ ts.Perm (chains.flatten.map line) ∧
      (∀ m ∈ chains.flatten, g.Describes strs (span m) (line m)) ∧
      (∀ m ∈ chains.flatten, ∀ m' ∈ chains.flatten, (line m).index = (line m').index → m = m') ∧
      (∃ orders, List.Forall₂ (fun c o => o.Perm c ∧ o.Pairwise (fun a b => naturalLe b a = true)) chains orders ∧
        rs = if rels then orders.flatMap (fun o => (neighbours o).map (fun p => ((line p.1).index, (line p.2).index))) else []) ∧
      (chains.flatten.Nodup → ∀ m ∈ chains.flatten, 1 ≤ (line m).index ∧ (line m).index ≤ chains.flatten.length) := by
  have htext : ∀ m ∈ chains.flatten, ∃ ss, List.Forall₂ g.TokenStr (span m) ss ∧ g.tokens2text (span m) = .ok (pyJoin " " ss) := by
    intro m hm
    have : ∃ ss, g.tokenStrings (span m) = .ok ss := by
      have hall := (hs m hm).2.2
      generalize span m = sp at hall
      induction sp with
      | nil => exact ⟨[], rfl⟩
      | cons t sp ih =>
        obtain ⟨ss, e⟩ := ih (fun t ht => hall t (List.mem_cons_of_mem _ ht))
        obtain ⟨s, _, h1⟩ := forall₂_mem_left ht (hall t (by simp))
        exact ⟨s :: ss, tokenStrings_ok.2 (.cons h1 (tokenStrings_ok.1 e))⟩
    obtain ⟨ss, e⟩ := this
    refine ⟨ss, tokenStrings_ok.1 e, ?_⟩
    unfold tokens2text
    rw [e]; rfl
  let text : NodeId → List Char := fun m => match g.tokens2text (span m) with
    | .ok s => s.toList
    | .error _ => []
  have htx : ∀ m ∈ chains.flatten, g.tokens2text (span m) = .ok (String.ofList (text m)) := by
    intro m hm
    obtain ⟨ss, _, e⟩ := htext m hm
    show _ = Except.ok (String.ofList (match g.tokens2text (span m) with | .ok s => s.toList | .error _ => []))
    rw [e]; simp
  let ms := chains.flatMap naturalSorted
  have hperm : ms.Perm chains.flatten := by
    show (chains.flatMap naturalSorted).Perm _
    clear hs htext htx
    induction chains with
    | nil => exact .refl _
    | cons c cs ih =>
      rw [List.flatMap_cons, List.flatten_cons]
      exact (pySorted_perm c).append ih
  obtain ⟨st, e1, ok⟩ := bratFold (g := g) (ns := ns) (span := span) (text := text) ms [] _ (bratOK_init span text) (fun m hm =>
    ⟨(hs m (hperm.mem_iff.1 hm)).1, (hs m (hperm.mem_iff.1 hm)).2.1, htx m (hperm.mem_iff.1 hm)⟩)
  rw [List.nil_append] at ok
  have e2 := bratTokens_spec ok strs g.tokens [] [] strs (by simp) (by simp) rfl ht nd
  rw [show startOf strs ([] : List NodeId).length = 0 from startOf_zero _] at e2
  let line : NodeId → TLine := fun m =>
    ⟨numOf st m, startOf strs (g.tokens.idxOf ((span m).headD (.int 0))), startOf strs (g.tokens.idxOf ((span m).headD (.int 0))) + (text m).length, text m⟩
  have hline : ∀ t, (ms.filter (fun m => decide ((span m).head? = some t))).map (fun m =>
      (⟨numOf st m, startOf strs (g.tokens.idxOf t), startOf strs (g.tokens.idxOf t) + (text m).length, text m⟩ : TLine)) =
      (ms.filter (fun m => decide ((span m).head? = some t))).map line := by
    intro t
    apply List.map_congr_left
    intro m hm
    rw [List.mem_filter] at hm
    have : (span m).headD (.int 0) = t := by
      have := of_decide_eq_true hm.2
      cases h : span m with
      | nil => rw [h] at this; simp at this
      | cons a r => rw [h] at this; simpa using this
    show _ = (⟨_, _, _, _⟩ : TLine)
    rw [this]
  have e3 : g.tokens.flatMap (fun t => (ms.filter (fun m => decide ((span m).head? = some t))).map (fun m =>
      (⟨numOf st m, startOf strs (g.tokens.idxOf t), startOf strs (g.tokens.idxOf t) + (text m).length, text m⟩ : TLine))) =
      (g.tokens.flatMap (fun t => ms.filter (fun m => decide ((span m).headD (.int 0) = t)))).map line := by
    rw [List.map_flatMap]
    apply List.flatMap_congr
    intro t _
    rw [hline t]
    congr 1
    apply List.filter_congr
    intro m hm
    have := (hs m (hperm.mem_iff.1 hm)).2.1
    cases h : span m with
    | nil => exact absurd h this
    | cons a r => simp
  rw [e3] at e2
  have hgroup := flatMap_filter_perm (fun m => (span m).headD (.int 0)) g.tokens ms nd (by
    intro m hm
    obtain ⟨_, h2, h3⟩ := hs m (hperm.mem_iff.1 hm)
    cases h : span m with
    | nil => exact absurd h h2
    | cons a r => exact h3 a (by simp [h]))
  have hrel : mapE (fun c => bratRels st (pySorted (fun a b => naturalLe b a) c)) chains =
      .ok (chains.map (fun c => (neighbours (pySorted (fun a b => naturalLe b a) c)).map (fun p => (numOf st p.1, numOf st p.2)))) := by
    rw [mapE_ok, List.forall₂_map_right_iff, List.forall₂_same]
    intro c hc
    apply bratRels_spec ok
    intro m hm
    rw [mem_pySorted] at hm
    exact hperm.mem_iff.2 (List.mem_flatten.2 ⟨c, hc, hm⟩)
  refine ⟨_, if rels then (chains.map (fun c => pySorted (fun a b => naturalLe b a) c)).flatMap (fun o => (neighbours o).map (fun p => (numOf st p.1, numOf st p.2))) else [], line, ?_, (hgroup.trans hperm).map line, ?_, ?_, ?_, ?_⟩
  · unfold bratLines
    have e1' : (chains.flatMap naturalSorted).foldlM (g.bratAdd ns) ⟨[], [], 1⟩ = .ok st := e1
    rw [e1']
    simp only [bind, Except.bind]
    rw [e2]
    cases rels with
    | false => rfl
    | true =>
      simp only [if_true]
      rw [hrel]
      simp only [List.flatMap_map, ← List.flatMap_def]
      rfl
  · intro m hm
    obtain ⟨h1, h2, h3⟩ := hs m hm
    cases hsp : span m with
    | nil => exact absurd hsp h2
    | cons t r =>
      rw [hsp] at h3
      refine ⟨⟨g.tokens.idxOf t, t, List.getElem?_idxOf (h3 t (by simp)), rfl, ?_⟩, ?_, rfl⟩
      · show startOf strs (g.tokens.idxOf ((span m).headD (.int 0))) = _
        rw [hsp]; rfl
      · obtain ⟨ss, f, e⟩ := htext m hm
        refine ⟨ss, hsp ▸ f, ?_⟩
        have := htx m hm
        rw [e] at this
        exact (Except.ok.inj this).symm
  · intro m hm m' hm' he
    have he' : numOf st m = numOf st m' := he
    obtain ⟨i, hi⟩ := ok.marks m (hperm.mem_iff.2 hm)
    obtain ⟨j, hj⟩ := ok.marks m' (hperm.mem_iff.2 hm')
    have : i = j := by
      unfold numOf at he'
      rw [hi, hj] at he'
      exact he'
    subst this
    exact ok.inj m m' i _ _ hi hj
  · refine ⟨chains.map (fun c => pySorted (fun a b => naturalLe b a) c), ?_, rfl⟩
    rw [List.forall₂_map_right_iff, List.forall₂_same]
    intro c _
    refine ⟨pySorted_perm c, ?_⟩
    exact pySorted_sorted (fun a b => (naturalLe_total b a)) (fun a b c h1 h2 => naturalLe_trans _ _ _ h2 h1) c
  · intro ndm m hm
    obtain ⟨k, hk⟩ := List.mem_iff_getElem?.1 (hperm.mem_iff.2 hm)
    obtain ⟨x, hx⟩ := ok.num (hperm.nodup_iff.2 ndm) k m hk
    have : (line m).index = k + 1 := by
      show numOf st m = k + 1
      unfold numOf; rw [hx]; rfl
    have h2 := (List.getElem?_eq_some_iff.1 hk).1
    rw [hperm.length_eq] at h2
    omega

theorem take_join (ss post : List String) : ∃ tail, joinChars " ".toList ((ss ++ post).map String.toList) = joinChars " ".toList (ss.map String.toList) ++ tail := by
  induction ss with
  | nil => exact ⟨_, rfl⟩
  | cons s ss ih =>
    cases ss with
    | nil =>
      cases post with
      | nil => exact ⟨[], by simp [joinChars]⟩
      | cons p ps => exact ⟨_, by simp only [List.cons_append, List.nil_append, List.map_cons, List.map_nil, joinChars, List.append_assoc]; rfl⟩
    | cons r rs =>
      obtain ⟨tail, ht⟩ := ih
      refine ⟨tail, ?_⟩
      simp only [List.cons_append, List.map_cons, joinChars] at ht ⊢
      rw [ht]
      simp

theorem drop_join (pre ss : List String) (hne : ss ≠ []) :
    (joinChars " ".toList ((pre ++ ss).map String.toList)).drop (startOf (pre ++ ss) pre.length) = joinChars " ".toList (ss.map String.toList) := by
  induction pre with
  | nil => simp [startOf_zero]
  | cons s pre ih =>
    rw [List.cons_append, List.length_cons, startOf_cons]
    have hne' : pre ++ ss ≠ [] := by simp [hne]
    obtain ⟨a, r, hr⟩ := List.exists_cons_of_ne_nil hne'
    rw [hr] at ih ⊢
    simp only [List.map_cons, joinChars] at ih ⊢
    rw [show s.toList.length + 1 + startOf (a :: r) pre.length = (s.toList ++ " ".toList).length + startOf (a :: r) pre.length by simp]
    rw [← List.drop_drop, List.drop_left' rfl]
    exact ih

/-- **C38 (the offsets), partial**.  For a markable whose tokens stand next to each other in the document, the text file (`get_text(docgraph)`) between the two offsets of
its T line is exactly the text of the T line.
Missing: markables with gaps, for which this is false (`c38_fails_for_discontinuous_spans`). -/
theorem c38_offsets_point_at_text_partial (g : DG) (fuel : Nat) (strs : List String) (ts : List NodeId) (l : TLine) (ht : g.HasTokens strs) (nd : g.tokens.Nodup)
    (hc : g.Contiguous ts) (hl : g.Describes strs ts l) :
    ∃ text, g.getText fuel none = .ok text ∧ pySlice text l.onset l.offset = String.ofList l.text ∧ l.offset ≤ text.length := by
  refine ⟨_, ((c17_text_is_joined_tokens g fuel _).1).2 ⟨strs, ht, rfl⟩, ?_⟩
  obtain ⟨⟨i, t, hi, hh, hon⟩, ⟨ss, hf, htext⟩, hoff⟩ := hl
  obtain ⟨pre, post, hp⟩ := hc
  have htlen : l.text = joinChars " ".toList (ss.map String.toList) := by
    unfold pyJoin at htext
    simpa using congrArg String.toList htext
  -- split the strings
  unfold HasTokens at ht
  rw [hp] at ht
  obtain ⟨s1, s2, h12, h2, rfl⟩ := forall₂_append_split ht
  obtain ⟨s0, s1', h0, h1, rfl⟩ := forall₂_append_split h12
  have he : s1' = ss := by
    clear hh htext htlen ht h12 h2 h0 hp hon
    induction h1 generalizing ss with
    | nil => cases hf; rfl
    | cons hr _ ih =>
      cases hf with
      | cons hr' hf' =>
        rw [ih _ hf']
        unfold TokenStr at hr hr'
        rw [hr] at hr'
        injection hr' with hr'
        injection hr' with hr'
        injection hr' with hr'
        rw [hr']
  subst he
  have hne : ts ≠ [] := by rintro rfl; simp at hh
  have hne' : s1' ≠ [] := by rintro rfl; cases h1; exact hne rfl
  have hil : i = s0.length := by
    have h3 : g.tokens[pre.length]? = some t := by
      rw [hp]
      cases ts with
      | nil => exact absurd rfl hne
      | cons a r => simp at hh; simp [hh]
    rw [← h0.length_eq]
    exact (List.getElem?_inj (List.getElem?_eq_some_iff.1 hi).1 nd).1 (hi.trans h3.symm)
  obtain ⟨tail, htail⟩ := take_join s1' s2
  have hdrop := drop_join s0 (s1' ++ s2) (by simp [hne'])
  rw [htail, ← List.append_assoc] at hdrop
  rw [← hil, ← hon, ← htlen] at hdrop
  constructor
  · unfold pySlice pyJoin
    rw [String.toList_ofList, hdrop, hoff, Nat.add_sub_cancel_left]
    simp
  · have hlen := congrArg List.length hdrop
    rw [List.length_drop, List.length_append] at hlen
    unfold pyJoin
    rw [String.length_ofList, hoff]
    have : 0 < l.text.length ∨ l.text.length = 0 := by omega
    have hstart : l.onset ≤ (joinChars " ".toList (((s0 ++ s1') ++ s2).map String.toList)).length := by
      rw [hon, hil]
      clear hlen hdrop htail ht h12 htext hoff hon htlen hil hi h0 hf h1 hp
      rw [List.append_assoc]
      have hne3 : s1' ++ s2 ≠ [] := by simp [hne']
      generalize s1' ++ s2 = r at hne3
      clear hne'
      induction s0 with
      | nil => simp [startOf_zero]
      | cons a s0 ih =>
        rw [List.cons_append, List.length_cons, startOf_cons]
        obtain ⟨b, r', hr⟩ := List.exists_cons_of_ne_nil (l := s0 ++ r) (by simp [hne3])
        rw [hr] at ih ⊢
        simp only [List.map_cons, joinChars, List.length_append] at ih ⊢
        have : " ".toList.length = 1 := by decide
        omega
    omega

/-- **C38 (own numbers), partial**.  If no markable occurs twice in the chains, no two T lines have the same number, and the numbers are 1, 2, …, number of markables.
Missing: markables in several chains (`c38_fails_for_shared_markables`). -/
theorem c38_own_numbers_partial (g : DG) (ns : String) (chains : List (List NodeId)) (strs : List String) (span : NodeId → List NodeId) (ht : g.HasTokens strs)
    (nd : g.tokens.Nodup) (hs : g.SpansGiven ns chains span) (ndm : chains.flatten.Nodup) (rels : Bool) :
    ∃ ts rs, g.bratLines ns chains rels = .ok (ts, rs) ∧ (ts.map TLine.index).Perm (List.range' 1 chains.flatten.length) := by
  obtain ⟨ts, rs, line, e, hp, _, hinj, _, hr⟩ := c38_lines g ns chains strs span ht nd hs rels
  refine ⟨ts, rs, e, (hp.map _).trans ?_⟩
  rw [List.map_map]
  have hnd : (chains.flatten.map (TLine.index ∘ line)).Nodup := by
    rw [List.nodup_map_iff_inj_on ndm]
    exact hinj
  apply List.Subperm.perm_of_length_le
  · apply List.subperm_of_subset hnd
    intro x hx
    obtain ⟨m, hm, rfl⟩ := List.mem_map.1 hx
    have := hr ndm m hm
    rw [List.mem_range'_1]
    show 1 ≤ (line m).index ∧ (line m).index < _
    omega
  · rw [List.length_range', List.length_map]
    exact Nat.le_refl _

/-- **C38 (relations)**.  R lines only refer to existing T lines, and a chain of n mentions gives n - 1 R lines. -/
theorem c38_relations_refer_to_lines (g : DG) (ns : String) (chains : List (List NodeId)) (strs : List String) (span : NodeId → List NodeId) (ht : g.HasTokens strs)
    (nd : g.tokens.Nodup) (hs : g.SpansGiven ns chains span) :
    ∃ ts rs, g.bratLines ns chains true = .ok (ts, rs) ∧ (∀ p ∈ rs, p.1 ∈ ts.map TLine.index ∧ p.2 ∈ ts.map TLine.index) ∧
      rs.length = (chains.map (fun c => c.length - 1)).sum := by
  obtain ⟨ts, rs, line, e, hp, hd, hi, ⟨orders, ho, hrs⟩, hnm⟩ := c38_lines g ns chains strs span ht nd hs true
  rw [if_pos rfl] at hrs
  have hn : ∀ (o : List NodeId) p, p ∈ neighbours o → p.1 ∈ o ∧ p.2 ∈ o := by
    intro o
    induction o with
    | nil => intro p hp; simp [neighbours] at hp
    | cons a o ih =>
      intro p hp
      cases o with
      | nil => simp [neighbours] at hp
      | cons b r =>
        rw [neighbours, List.mem_cons] at hp
        rcases hp with rfl | hp
        · simp
        · have := ih p hp
          exact ⟨List.mem_cons_of_mem _ this.1, List.mem_cons_of_mem _ this.2⟩
  have hlen : ∀ (o : List NodeId), (neighbours o).length = o.length - 1 := by
    intro o
    induction o with
    | nil => rfl
    | cons a o ih =>
      cases o with
      | nil => rfl
      | cons b r => rw [neighbours, List.length_cons, ih]; simp
  refine ⟨ts, rs, e, ?_, ?_⟩
  · intro p hpr
    rw [hrs, List.mem_flatMap] at hpr
    obtain ⟨o, hom, hpo⟩ := hpr
    obtain ⟨q, hq, rfl⟩ := List.mem_map.1 hpo
    obtain ⟨c, hc, hoc, _⟩ := forall₂_mem_right ho hom
    have hq' := hn o q hq
    have : ∀ m ∈ o, (line m).index ∈ ts.map TLine.index := by
      intro m hm
      exact List.mem_map_of_mem (hp.mem_iff.2 (List.mem_map_of_mem (List.mem_flatten.2 ⟨c, hc, hoc.mem_iff.1 hm⟩)))
    exact ⟨this _ hq'.1, this _ hq'.2⟩
  · rw [hrs]
    clear hrs e hp hs hd hi hnm
    induction ho with
    | nil => rfl
    | cons h _ ih => rw [List.flatMap_cons, List.length_append, ih, List.length_map, hlen, h.1.length_eq]; simp

/-- **C38 (spans)**.  Tokens of a span string that were renamed when documents were merged are found under their new name, tokens that are not in the document are left out:
the tokens of a span string are, in order, its IDs that are nodes of the graph, or else the nodes they were renamed to. -/
theorem c38_span_tokens (g : DG) (s : String) (ids : List String) (h : convertSpanstring s = .ok ids) (new : String → NodeId)
    (h1 : ∀ i ∈ ids, g.HasNode (.str i) → new i = .str i)
    (h2 : ∀ i ∈ ids, ¬ g.HasNode (.str i) → g.HasNode (new i) → ∃ d, g.renamed = some d ∧ find d (.str i) = some (new i))
    (h3 : ∀ i ∈ ids, ¬ g.HasNode (.str i) → ¬ g.HasNode (new i) → ∀ d r, g.renamed = some d → find d (.str i) = some r → ¬ g.HasNode r) :
    g.spanstring2tokens s = .ok ((ids.map new).filter (fun n => has g.nodes n)) := by
  unfold spanstring2tokens
  rw [h]
  show Except.ok _ = _
  congr 1
  have hn : ∀ n, g.HasNode n ↔ has g.nodes n = true := fun n => (has_iff _ _).symm
  clear h
  induction ids with
  | nil => rfl
  | cons i ids ih =>
    have ih' := ih (fun j hj => h1 j (List.mem_cons_of_mem _ hj)) (fun j hj => h2 j (List.mem_cons_of_mem _ hj)) (fun j hj => h3 j (List.mem_cons_of_mem _ hj))
    rw [List.map_cons, List.filterMap_cons, List.filter_cons, ih']
    unfold existingToken
    by_cases hi : g.HasNode (.str i)
    · rw [h1 i (by simp) hi, if_pos ((hn _).1 hi), if_pos ((hn _).1 hi)]
    · rw [if_neg (fun x => hi ((hn _).2 x))]
      by_cases hi' : g.HasNode (new i)
      · obtain ⟨d, hd, hf⟩ := h2 i (by simp) hi hi'
        rw [hd]
        simp only [Option.bind_some, hf]
        rw [if_pos ((hn _).1 hi'), if_pos ((hn _).1 hi')]
      · rw [if_neg (fun x => hi' ((hn _).2 x))]
        have := h3 i (by simp) hi hi'
        cases hr : g.renamed with
        | none => simp
        | some d =>
          simp only [Option.bind_some]
          cases hf : find d (.str i) with
          | none => rfl
          | some r =>
            simp only
            rw [if_neg (fun x => this d r hr hf ((hn _).2 x))]

/-- **C38 (file format)**.  If the markable texts contain neither tabs nor line breaks, the lines of the annotation file are the T lines followed by the R lines (numbered from 1); the
fields of a T line, separated by tabs, are `T` and its number, `Markable` with the two offsets, and the text; all numbers can be read back. -/
theorem c38_format (fuel : Nat) (g : DG) (layer : Option String) (rels : Bool) (chains : List (List NodeId)) (ts : List TLine) (rs : List (Nat × Nat))
    (hc : getPointingChains fuel g layer = .ok chains) (hl : g.bratLines (g.corefNamespace layer) chains rels = .ok (ts, rs))
    (hn : ∀ l ∈ ts, '\n' ∉ l.text ∧ '\t' ∉ l.text) :
    ∃ out tl rl, bratOutput fuel g layer rels = .ok out ∧ splitChars '\n' out = tl ++ rl ++ [[]] ∧
      List.Forall₂ (fun l line => ∃ i on off, splitChars '\t' line = ['T' :: i, "Markable ".toList ++ on ++ ' ' :: off, l.text] ∧
        parseDec i = l.index ∧ splitChars ' ' ("Markable ".toList ++ on ++ ' ' :: off) = ["Markable".toList, on, off] ∧ parseDec on = l.onset ∧ parseDec off = l.offset) ts tl ∧
      List.Forall₂ (fun (q : Nat × Nat × Nat) line => ∃ n i j, splitChars '\t' line = ['R' :: n, "Coreference Arg1:T".toList ++ i ++ (" Arg2:T".toList ++ j)] ∧
        parseDec n = q.1 ∧ parseDec i = q.2.1 ∧ parseDec j = q.2.2) ((List.range' 1 rs.length).zip rs) rl := by
  have hdig : ∀ (c : Char), isDigitChar c = false → ∀ n, c ∉ decimal n := by
    intro c hc n hm
    rw [decimal_digits n c hm] at hc
    exact absurd hc (by decide)
  have hnl := hdig '\n' (by decide)
  have htab := hdig '\t' (by decide)
  have hsp := hdig ' ' (by decide)
  have e1 : "Markable ".toList = ['M', 'a', 'r', 'k', 'a', 'b', 'l', 'e', ' '] := by decide
  have e1' : "Markable".toList = ['M', 'a', 'r', 'k', 'a', 'b', 'l', 'e'] := by decide
  have e2 : "Coreference Arg1:T".toList = ['C', 'o', 'r', 'e', 'f', 'e', 'r', 'e', 'n', 'c', 'e', ' ', 'A', 'r', 'g', '1', ':', 'T'] := by decide
  have e3 : " Arg2:T".toList = [' ', 'A', 'r', 'g', '2', ':', 'T'] := by decide
  let tl : TLine → List Char := fun l => ('T' :: decimal l.index) ++ '\t' :: (("Markable ".toList ++ decimal l.onset ++ ' ' :: decimal l.offset) ++ '\t' :: l.text)
  let rl : Nat × Nat × Nat → List Char := fun q => ('R' :: decimal q.1) ++ '\t' :: ("Coreference Arg1:T".toList ++ decimal q.2.1 ++ (" Arg2:T".toList ++ decimal q.2.2))
  have ht : ∀ l, l.render = tl l ++ ['\n'] := by
    intro l
    simp [TLine.render, tl, e1]
  have hr : ∀ (rs : List (Nat × Nat)) n, splitChars '\n' (renderRels n rs) = ((List.range' n rs.length).zip rs).map rl ++ [[]] := by
    intro rs
    induction rs with
    | nil => intro n; rfl
    | cons p rs ih =>
      obtain ⟨i, j⟩ := p
      intro n
      have : renderRels n ((i, j) :: rs) = rl (n, i, j) ++ '\n' :: renderRels (n + 1) rs := by
        rw [renderRels]; simp [rl, e2, e3]
      rw [this, splitChars_append_sep, ih (n + 1)]
      · simp [List.range'_succ]
      · simp [rl, e2, e3, hnl]
  refine ⟨ts.flatMap TLine.render ++ renderRels 1 rs, ts.map tl, ((List.range' 1 rs.length).zip rs).map rl, ?_, ?_, ?_, ?_⟩
  · unfold bratOutput
    rw [hc]
    simp only [bind, Except.bind]
    rw [hl]
    rfl
  · clear hl
    induction ts with
    | nil => exact hr rs 1
    | cons l ts ih =>
      have h1 := ih (fun l' hl' => hn l' (List.mem_cons_of_mem _ hl'))
      rw [List.flatMap_cons, ht, List.append_assoc, List.append_assoc, List.singleton_append, splitChars_append_sep, h1]
      · simp
      · have := (hn l (by simp)).1
        simp [tl, e1, hnl, this]
  · rw [List.forall₂_map_right_iff, List.forall₂_same]
    intro l hl
    refine ⟨decimal l.index, decimal l.onset, decimal l.offset, ?_, parseDec_decimal _, ?_, parseDec_decimal _, parseDec_decimal _⟩
    · show splitChars '\t' (('T' :: decimal l.index) ++ '\t' :: (("Markable ".toList ++ decimal l.onset ++ ' ' :: decimal l.offset) ++ '\t' :: l.text)) = _
      rw [splitChars_append_sep, splitChars_append_sep, splitChars_no_sep _ _ (hn l hl).2]
      · simp [e1, htab]
      · simp [htab]
    · rw [show "Markable ".toList ++ decimal l.onset ++ ' ' :: decimal l.offset = "Markable".toList ++ ' ' :: (decimal l.onset ++ ' ' :: decimal l.offset) by simp [e1, e1']]
      rw [splitChars_append_sep, splitChars_append_sep, splitChars_no_sep _ _ (hsp _)]
      · exact hsp _
      · rw [e1']; decide
  · rw [List.forall₂_map_right_iff, List.forall₂_same]
    intro q _
    refine ⟨decimal q.1, decimal q.2.1, decimal q.2.2, ?_, parseDec_decimal _, parseDec_decimal _, parseDec_decimal _⟩
    show splitChars '\t' (('R' :: decimal q.1) ++ '\t' :: ("Coreference Arg1:T".toList ++ decimal q.2.1 ++ (" Arg2:T".toList ++ decimal q.2.2))) = _
    rw [splitChars_append_sep, splitChars_no_sep]
    · simp [e2, e3, htab]
    · simp [htab]

/-! ### examples -/

/-- a document with five tokens and two markables (each with two mentions); one span has a gap -/
def sampleCoref (spans : List (String × String)) (rels : List (String × String)) : DG :=
  (DG.init "" "doc" none).run (
    [("word_1", "Die"), ("word_2", "Halle"), ("word_3", "ist"), ("word_4", "sie"), ("word_5", "da")].map (fun p =>
      .addNode (.str p.1) (.atom .none) .none [("doc:token", .atom (.str p.2))]) ++
    [.setTokens [.str "word_1", .str "word_2", .str "word_3", .str "word_4", .str "word_5"]] ++
    spans.map (fun p => .addNode (.str p.1) (.atom .none) .none [("doc:span", .atom (.str p.2))]) ++
    rels.map (fun p => .addEdge (.str p.1) (.str p.2) (.atom .none) none .none [("edge_type", .atom (.str "points_to"))]))

def sampleBrat : DG := sampleCoref [("m_1", "word_1..word_2"), ("m_2", "word_4")] [("m_2", "m_1")]

example : sampleBrat.HasTokens ["Die", "Halle", "ist", "sie", "da"] ∧ sampleBrat.tokens.Nodup ∧
    getPointingChains 9 sampleBrat none = .ok [[.str "m_2", .str "m_1"]] ∧
    sampleBrat.SpansGiven "doc" [[.str "m_2", .str "m_1"]] (fun m => if m = .str "m_2" then [.str "word_4"] else [.str "word_1", .str "word_2"]) ∧
    [[NodeId.str "m_2", .str "m_1"]].flatten.Nodup ∧ sampleBrat.Contiguous [.str "word_1", .str "word_2"] ∧
    sampleBrat.bratLines "doc" [[.str "m_2", .str "m_1"]] true =
      .ok ([⟨1, 0, 9, "Die Halle".toList⟩, ⟨2, 14, 17, "sie".toList⟩], [(2, 1)]) ∧
    bratOutput 9 sampleBrat none true = .ok "T1\tMarkable 0 9\tDie Halle\nT2\tMarkable 14 17\tsie\nR1\tCoreference Arg1:T2 Arg2:T1\n".toList := by
  have htok : sampleBrat.tokens = [.str "word_1", .str "word_2", .str "word_3", .str "word_4", .str "word_5"] := by decide
  refine ⟨?_, by decide, by decide +kernel, ?_, by decide, ⟨[], [.str "word_3", .str "word_4", .str "word_5"], by decide⟩, by decide +kernel, by decide +kernel⟩
  · unfold HasTokens
    rw [htok]
    exact .cons (by unfold TokenStr; decide) (.cons (by unfold TokenStr; decide) (.cons (by unfold TokenStr; decide) (.cons (by unfold TokenStr; decide) (.cons (by unfold TokenStr; decide) .nil))))
  · intro m hm
    simp only [List.flatten_cons, List.flatten_nil, List.append_nil, List.mem_cons, List.not_mem_nil, or_false] at hm
    rcases hm with rfl | rfl
    · exact ⟨⟨"word_4", by decide, by decide +kernel⟩, by decide, by decide⟩
    · exact ⟨⟨"word_1..word_2", by decide, by decide +kernel⟩, by decide, by decide⟩

/-- **C38 is violated** for markables with gaps: the T line of the markable 'Halle … sie' claims the characters 4–13, which are 'Halle ist', not its text 'Halle sie'. -/
theorem c38_fails_for_discontinuous_spans :
    let g := sampleCoref [("m_1", "word_2,word_4"), ("m_2", "word_5")] [("m_2", "m_1")]
    bratOutput 9 g none false = .ok "T1\tMarkable 4 13\tHalle sie\nT2\tMarkable 18 20\tda\n".toList ∧
    (g.getText 9 none).map (fun t => pySlice t 4 13) = .ok "Halle ist" := by decide +kernel

/-- **C38 is violated** for markables in two chains: two anaphors that point at the same antecedent give two T lines with the same number, and not all numbers are used. -/
theorem c38_fails_for_shared_markables :
    bratOutput 9 (sampleCoref [("m_1", "word_2"), ("m_2", "word_4"), ("m_3", "word_5")] [("m_2", "m_1"), ("m_3", "m_1")]) none false =
      .ok "T3\tMarkable 4 9\tHalle\nT3\tMarkable 4 9\tHalle\nT2\tMarkable 14 17\tsie\nT4\tMarkable 18 20\tda\n".toList := by decide +kernel

/-- **C38 is violated** if a span begins with a node that is no token of the document: the R line then refers to a T line that does not exist. -/
theorem c38_fails_for_foreign_tokens :
    bratOutput 9 { sampleBrat with tokens := [.str "word_1", .str "word_2"] } none true =
      .ok "T1\tMarkable 0 9\tDie Halle\nR1\tCoreference Arg1:T2 Arg2:T1\n".toList := by decide +kernel

/-- a token that was renamed when documents were merged is found; a token that does not exist is left out -/
example : ({ sampleBrat with renamed := some [(.str "w_1", .str "word_1")] } : DG).spanstring2tokens "w_1..w_2" = .ok [.str "word_1"] := by decide +kernel

end DG
end Dg
