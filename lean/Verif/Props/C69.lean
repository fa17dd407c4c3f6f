import Verif.Lemmas.SaltLing
import Verif.Props.C68

namespace Dg
open Dict
open DG (mapE mapE_ok bind_ok_iff)

theorem orders_none {d : SaltDoc} (hm : d.Made) {r : SaltOrders} (hr : r.For d) : r.spans = [] ∧ r.tokens = [] := by
  have h : ∀ e ∈ d.edges, e.cls ≠ .spanning := by
    intro e he hc
    have := (hm.edges e he).cls
    rw [hc] at this
    simp at this
  constructor
  · apply List.eq_nil_iff_forall_not_mem.2
    intro k hk
    obtain ⟨e, he, hc, _⟩ := (hr.spans.2 k).1 hk
    exact h e he hc
  · apply List.eq_nil_iff_forall_not_mem.2
    intro k hk
    obtain ⟨e, he, hc, _⟩ := (hr.tokens.2 k).1 hk
    exact h e he hc

theorem cls_ids {nodes : List SaltObj} (h : ∀ c ∈ nodes.map SaltObj.cls, c.isSub .token = false) : subtypeIds nodes .token = [] := by
  unfold subtypeIds
  rw [List.map_eq_nil_iff, List.filter_eq_nil_iff]
  intro p hp hx
  have := List.mem_zipIdx_iff_getElem?.1 hp
  rw [h p.1.cls (List.mem_map.2 ⟨p.1, List.mem_of_getElem? this, rfl⟩)] at hx
  cases hx

theorem made_cls {d : SaltDoc} (hm : d.Made) {nodes : List SaltObj} (h : nodes.map SaltObj.cls = d.nodes.map SaltObj.cls) : ∀ c ∈ nodes.map SaltObj.cls, c.isSub .token = false := by
  intro c hc
  rw [h] at hc
  obtain ⟨o, ho, rfl⟩ := List.mem_map.1 hc
  have := (hm.nodes o ho).cls
  revert this
  cases o.cls <;> decide

/-- **C69**, partial: a document whose first node is a text, and whose textual and dominance relations connect nodes of the document, becomes a linguistic document with the same ID, edges and layers,
the text of the first node, and the same nodes: each of them has the offsets of its last textual relation, the list of nodes it dominates and the list of nodes that dominate it, in the order of the
relations in the file; this does not depend on the order of the keys of the dicts.
Missing: sentences, the tokens of spans and the spans of tokens, which are never found (`c69_fails_tokens_sentences_spans`). -/
theorem c69_linguistic_partial (root : SXml) (d : SaltDoc) (hd : saltDocument root = .ok d) (r : SaltOrders) (hr : r.For d) (o : SaltObj) (rest : List SaltObj) (t : String) (hfirst : d.nodes = o :: rest)
    (htext : o.text = some t)
    (hsrc : ∀ e ∈ d.edges, e.cls = .textual ∨ e.cls = .dominance → ∀ k, e.source = some k → ∃ i : Nat, i < d.nodes.length ∧ k = i)
    (htgt : ∀ e ∈ d.edges, e.cls = .dominance → ∀ k, e.target = some k → ∃ i : Nat, i < d.nodes.length ∧ k = i) :
    ∃ l, saltLinguistic d r = .ok l ∧ l.docId = d.docId ∧ l.text = t ∧ l.edges = d.edges ∧ l.layers = d.layers ∧ l.nodes.length = d.nodes.length ∧
      ∀ (i : Nat) o, d.nodes[i]? = some o → l.nodes[i]? = some (d.enriched i o) := by
  have hm := made_document hd
  obtain ⟨hr1, hr2⟩ := orders_none hm hr
  have hT : saltAt d.edges (subtypeIds d.edges .textual) = d.edges.filter (fun e => e.cls = .textual) := by
    rw [saltAt_sub, made_filter hm.edges (by simp)]
  have hD : saltAt d.edges (subtypeIds d.edges .dominance) = d.edges.filter (fun e => e.cls = .dominance) := by
    rw [saltAt_sub, made_filter hm.edges (by simp)]
  have hS : saltAt d.edges (subtypeIds d.edges .spanning) = [] := by
    rw [saltAt_sub, made_none hm.edges (by simp)]
  obtain ⟨n1, h1, l1, g1⟩ := saltOffsets_ok (d.edges.filter (fun e => e.cls = .textual)) d.nodes (by
    intro e he
    obtain ⟨he, hc⟩ := List.mem_filter.1 he
    have hc := of_decide_eq_true hc
    obtain ⟨a, b, ha, hb⟩ := (hm.edges e he).offsets hc
    obtain ⟨s, _, hs, _⟩ := (hm.edges e he).ends (by simp [hc])
    obtain ⟨i, hi, rfl⟩ := hsrc e he (.inl hc) s hs
    exact ⟨i, a, b, hi, hs, ha, hb⟩)
  obtain ⟨ps, hps, hF⟩ := saltEnds_ok (d.edges.filter (fun e => e.cls = .dominance)) (by
    intro e he
    obtain ⟨he, hc⟩ := List.mem_filter.1 he
    exact (hm.edges e he).ends (by simp [of_decide_eq_true hc]))
  obtain ⟨n2, h2, l2, g2⟩ := saltStore_ok (fun v o => { o with dominates := some v }) (saltGroup ps) r.dominating n1 hr.dominating.1 (by
    intro k hk
    obtain ⟨e, he, hc, hs⟩ := (hr.dominating.2 k).1 hk
    rw [l1]
    exact hsrc e he (.inr hc) k hs)
  obtain ⟨n3, h3, l3, g3⟩ := saltStore_ok (fun v o => { o with dominatedBy := some v }) (saltGroup (ps.map Prod.swap)) r.dominated n2 hr.dominated.1 (by
    intro k hk
    obtain ⟨e, he, hc, hs⟩ := (hr.dominated.2 k).1 hk
    rw [l2, l1]
    exact htgt e he hc k hs)
  have hids : subtypeIds n1 .token = [] := cls_ids (made_cls hm (cls_offsets _ _ _ h1))
  refine ⟨⟨d.docId, t, n3, d.edges, d.layers, []⟩, ?_, rfl, rfl, rfl, rfl, ?_, ?_⟩
  · unfold saltLinguistic
    rw [hT, hD, hS, hfirst, hr1, hr2]
    rw [hfirst] at h1
    simp only [bind, Except.bind, htext, saltAttr, h1, hids, extract_none, saltStore, hps, h2, h3, show saltEnds [] = .ok [] from rfl]
  · exact l3.trans (l2.trans l1)
  · intro i o ho
    have hg1 := g1 i o ho
    have hg2 := g2 i _ hg1
    have hg3 := g3 i _ hg2
    rw [getD_saltGroup, grouped_targets hF, filterMap_filter_cls] at hg3
    rw [getD_saltGroup, grouped_sources hF, filterMap_filter_cls] at hg3
    rw [hg3, List.filter_filter]
    congr 1
    have ht : (d.edges.filter (fun e => decide (e.source = some (i : Int)) && decide (e.cls = .textual))).getLast? = d.textualOf i := by
      unfold SaltDoc.textualOf
      congr 1
      apply List.filter_congr
      intro e _
      rw [Bool.and_comm, ← Bool.decide_and]
    rw [ht]
    have hsome : ∀ {f : SaltObj → Option Int} {P : SaltObj → Prop} [DecidablePred P], (∀ e ∈ d.edges, P e → (f e).isSome) →
        ((∃ e ∈ d.edges, P e) ↔ d.edges.filterMap (fun e => if P e then f e else none) ≠ []) := by
      intro f P _ hf
      constructor
      · rintro ⟨e, he, hp⟩ h0
        obtain ⟨v, hv⟩ := Option.isSome_iff_exists.1 (hf e he hp)
        have : v ∈ d.edges.filterMap (fun e => if P e then f e else none) := List.mem_filterMap.2 ⟨e, he, by rw [if_pos hp, hv]⟩
        rw [h0] at this
        cases this
      · intro h
        obtain ⟨v, hv⟩ := List.exists_mem_of_ne_nil _ h
        obtain ⟨e, he, hx⟩ := List.mem_filterMap.1 hv
        by_cases hp : P e
        · exact ⟨e, he, hp⟩
        · rw [if_neg hp] at hx
          cases hx
    have hk1 : ((i : Int) ∈ r.dominating) ↔ d.targets .dominance i ≠ [] := by
      rw [hr.dominating.2]
      exact hsome (f := fun e => e.target) (P := fun e => e.cls = .dominance ∧ e.source = some (i : Int)) (fun e he hp => by
        obtain ⟨s, t, _, ht⟩ := (hm.edges e he).ends (by simp [hp.1])
        rw [ht]
        rfl)
    have hk2 : ((i : Int) ∈ r.dominated) ↔ d.sources .dominance i ≠ [] := by
      rw [hr.dominated.2]
      exact hsome (f := fun e => e.source) (P := fun e => e.cls = .dominance ∧ e.target = some (i : Int)) (fun e he hp => by
        obtain ⟨s, t, hs, _⟩ := (hm.edges e he).ends (by simp [hp.1])
        rw [hs]
        rfl)
    simp only [hk1, hk2]
    unfold SaltDoc.enriched
    have e1 : d.edges.filterMap (fun e => if e.cls = SaltClass.dominance ∧ e.source = some (i : Int) then e.target else none) = d.targets .dominance i := rfl
    have e2 : d.edges.filterMap (fun e => if e.cls = SaltClass.dominance ∧ e.target = some (i : Int) then e.source else none) = d.sources .dominance i := rfl
    rw [e1, e2]
    generalize d.targets .dominance i = A
    generalize d.sources .dominance i = B
    generalize d.textualOf i = T
    cases A <;> cases B <;> cases T <;> simp [nonEmptyList, SaltObj.withOffsets]

/-- the orders for the sample document -/
def sampleOrders : SaltOrders := ⟨[], [], [3], [2, 1]⟩

example : (saltDocument sampleSaltRoot).toOption.map (fun d => (saltLinguistic d sampleOrders).toOption.map (fun l => (l.text, l.nodes.map SaltObj.onset, l.nodes.map SaltObj.offset))) =
    some (some ("Er ging .", [none, some 0, some 8, none], [none, some 2, some 9, none])) := by decide +kernel
example : (saltDocument sampleSaltRoot).toOption.map (fun d => (saltLinguistic d sampleOrders).toOption.map (fun l => (l.nodes.map SaltObj.dominates, l.nodes.map SaltObj.dominatedBy))) =
    some (some ([none, none, none, some [1, 2]], [none, some [3], some [3], none])) := by decide +kernel
example : (saltDocument sampleSaltRoot).toOption.map (fun d => decide (∀ e ∈ d.edges, (e.cls = .textual ∨ e.cls = .dominance) ∧ (∃ k ∈ [1, 2, 3], e.source = some k) ∧ ∃ k ∈ [0, 1, 2], e.target = some k)) = some true := by
  decide +kernel
example : (saltDocument sampleSaltRoot).toOption.map (fun d => ((d.nodes.map SaltObj.text).head?, d.edges.map SaltObj.cls)) = some (some (some "Er ging ."), [.textual, .textual, .dominance, .dominance]) := by decide +kernel

/-- **C69 is violated** for every document: nodes read from a file are never token, span or structure nodes and relations are never spanning relations (the class is lost), so there are no sentences,
no node has tokens or spans, no token can be printed and no sentence can be printed. -/
theorem c69_fails_tokens_sentences_spans (root : SXml) (d : SaltDoc) (hd : saltDocument root = .ok d) (r : SaltOrders) (hr : r.For d) (l : SaltLing) (hl : saltLinguistic d r = .ok l) :
    l.sentences = [] ∧ (∀ o ∈ l.nodes, o.tokens = none ∧ o.spans = none) ∧ (∀ i, l.printToken i = .error .assertion ∨ l.printToken i = .error .index) ∧ ∀ i, l.printSentence i = .error .index := by
  have hm := made_document hd
  obtain ⟨hr1, hr2⟩ := orders_none hm hr
  unfold saltLinguistic at hl
  rw [hr1, hr2] at hl
  simp only [saltStore, bind_ok_iff] at hl
  obtain ⟨_, _, _, _, n1, h1, ss, h2, sp, h3, n2, h4, n3, h5, ps, h6, n4, h7, n5, h8, h⟩ := hl
  cases h4
  cases h5
  cases h
  have hids : subtypeIds n1 .token = [] := cls_ids (made_cls hm (cls_offsets _ _ _ h1))
  rw [hids, extract_none] at h2
  cases h2
  have hcls : n5.map SaltObj.cls = d.nodes.map SaltObj.cls := by
    rw [cls_store (by intro _ _; rfl) _ _ _ _ h8, cls_store (by intro _ _; rfl) _ _ _ _ h7, cls_offsets _ _ _ h1]
  have hset : ∀ (f : SaltObj → SaltObj), (∀ o, (f o).tokens = o.tokens ∧ (f o).spans = o.spans) → ∀ i nodes nodes', saltSet nodes i f = .ok nodes' →
      (∀ o ∈ nodes, o.tokens = none ∧ o.spans = none) → ∀ o ∈ nodes', o.tokens = none ∧ o.spans = none := by
    intro f hf i nodes nodes' h hn o ho
    unfold saltSet at h
    rw [bind_ok_iff] at h
    obtain ⟨k, _, h⟩ := h
    cases h
    obtain ⟨j, hj⟩ := List.mem_iff_getElem?.1 ho
    rw [List.getElem?_modify] at hj
    cases hx : nodes[j]? with
    | none => rw [hx] at hj; cases hj
    | some o' =>
      rw [hx] at hj
      have ho' := hn o' (List.mem_of_getElem? hx)
      split at hj
      · cases hj
        rw [(hf o').1, (hf o').2]
        exact ho'
      · cases hj
        exact ho'
  have hstore : ∀ (set : List Int → SaltObj → SaltObj), (∀ v o, (set v o).tokens = o.tokens ∧ (set v o).spans = o.spans) → ∀ dd ks nodes nodes', saltStore set dd nodes ks = .ok nodes' →
      (∀ o ∈ nodes, o.tokens = none ∧ o.spans = none) → ∀ o ∈ nodes', o.tokens = none ∧ o.spans = none := by
    intro set hs dd ks
    induction ks with
    | nil =>
      intro nodes nodes' h hn
      cases h
      exact hn
    | cons k ks ih =>
      intro nodes nodes' h hn
      unfold saltStore at h
      rw [bind_ok_iff] at h
      obtain ⟨n1, h1, h⟩ := h
      exact ih _ _ h (hset _ (hs _) _ _ _ h1 hn)
  have hoff : ∀ es nodes nodes', saltOffsets nodes es = .ok nodes' → (∀ o ∈ nodes, o.tokens = none ∧ o.spans = none) → ∀ o ∈ nodes', o.tokens = none ∧ o.spans = none := by
    intro es
    induction es with
    | nil =>
      intro nodes nodes' h hn
      cases h
      exact hn
    | cons e es ih =>
      intro nodes nodes' h hn
      unfold saltOffsets at h
      simp only [bind_ok_iff] at h
      obtain ⟨_, _, _, _, n1, h1, _, _, n2, h2, h⟩ := h
      exact ih _ _ h (hset _ (by intro _; exact ⟨rfl, rfl⟩) _ _ _ h2 (hset _ (by intro _; exact ⟨rfl, rfl⟩) _ _ _ h1 hn))
  refine ⟨rfl, ?_, ?_, ?_⟩
  · have h0 : ∀ o ∈ d.nodes, o.tokens = none ∧ o.spans = none := fun o ho => ⟨(hm.nodes o ho).plain.1, (hm.nodes o ho).plain.2.1⟩
    exact hstore _ (by intro _ _; exact ⟨rfl, rfl⟩) _ _ _ _ h8 (hstore _ (by intro _ _; exact ⟨rfl, rfl⟩) _ _ _ _ h7 (hoff _ _ _ h1 h0))
  · intro i
    unfold SaltLing.printToken
    dsimp only
    cases hi : saltIndex n5.length i with
    | error e =>
      right
      unfold saltIndex at hi
      split at hi <;> split at hi <;> cases hi <;> rfl
    | ok k =>
      dsimp only [bind, Except.bind]
      cases hk : n5[k]? with
      | none => exact .inr rfl
      | some o =>
        left
        dsimp only
        rw [if_neg]
        rw [made_cls hm hcls o.cls (List.mem_map.2 ⟨o, List.mem_of_getElem? hk, rfl⟩)]
        simp
  · intro i
    unfold SaltLing.printSentence
    dsimp only
    have : saltIndex ([] : List (List Nat)).length i = .error .index := by
      unfold saltIndex
      split
      · rw [if_neg (by simp; omega)]
      · rw [if_neg (by simp; omega)]
    rw [this]
    rfl

example : (saltDocument sampleSaltRoot).toOption.map (fun d => (saltLinguistic d sampleOrders).toOption.map (fun l => (l.sentences, (l.printToken 1).isOk, (l.printSentence 0).isOk))) =
    some (some ([], false, false)) := by decide +kernel

/-- **C69 (errors)**.  Without nodes there is an IndexError, and if the first node is not a text there is an AttributeError. -/
theorem c69_errors (d : SaltDoc) (r : SaltOrders) :
    (d.nodes = [] → saltLinguistic d r = .error .index) ∧ (∀ o rest, d.nodes = o :: rest → o.text = none → saltLinguistic d r = .error .attribute) := by
  constructor
  · intro h
    unfold saltLinguistic
    rw [h]
    rfl
  · intro o rest h ht
    unfold saltLinguistic
    rw [h]
    simp only [bind, Except.bind, ht, saltAttr]

example : (saltDocument sampleMissingEnd).toOption.map (fun d => d.nodes.map SaltObj.text) = some [none] := by decide +kernel

theorem extract_iff (ids : List Nat) : ∀ (ns : List (SaltObj × Nat)) (toks : List Nat) (ss : List (List Nat)), extractSentences ids toks ns = .ok ss ↔
    ∃ ts, posOf ids ns ts ∧ ((∀ t ∈ ts, t.2 ≠ "$.") ∧ ss = [] ∨ ∃ s stop rest ss', ts = s ++ (stop, "$.") :: rest ∧ (∀ t ∈ s, t.2 ≠ "$.") ∧ SentencesOf rest ss' ∧
      ss = (toks ++ (s.map Prod.fst ++ [stop])) :: ss')
  | [], toks, ss => by
    unfold extractSentences
    constructor
    · intro h
      cases h
      exact ⟨[], .nil, .inl ⟨by simp, rfl⟩⟩
    · rintro ⟨ts, hp, h⟩
      cases hp
      rcases h with ⟨_, rfl⟩ | ⟨s, stop, rest, ss', h, _⟩
      · rfl
      · simp at h
  | (o, i) :: ns, toks, ss => by
    unfold extractSentences
    by_cases hi : i ∈ ids
    · rw [if_pos hi]
      have hpos : ∀ ts, posOf ids ((o, i) :: ns) ts ↔ ∃ p ts', ts = (i, p) :: ts' ∧ (∃ fs, o.features = some fs ∧ find fs "tiger.pos" = some p) ∧ posOf ids ns ts' := by
        intro ts
        unfold posOf
        rw [List.filter_cons, if_pos (by simpa using hi)]
        constructor
        · intro h
          cases ts with
          | nil => cases h
          | cons t ts =>
            cases h with
            | cons h hs =>
              obtain ⟨h1, h2⟩ := h
              obtain ⟨t1, t2⟩ := t
              have h1 : i = t1 := h1
              subst h1
              exact ⟨t2, ts, rfl, h2, hs⟩
        · rintro ⟨p, ts', rfl, h2, hs⟩
          exact .cons ⟨rfl, h2⟩ hs
      cases hf : o.features with
      | none =>
        constructor
        · intro h
          simp only [saltAttr, bind, Except.bind] at h
          cases h
        · rintro ⟨ts, hp, _⟩
          obtain ⟨_, _, _, ⟨fs, hfs, _⟩, _⟩ := (hpos ts).1 hp
          rw [hf] at hfs
          cases hfs
      | some fs =>
        simp only [saltAttr, bind, Except.bind]
        cases hp : find fs "tiger.pos" with
        | none =>
          constructor
          · intro h
            cases h
          · rintro ⟨ts, hx, _⟩
            obtain ⟨_, _, _, ⟨fs', hfs, hy⟩, _⟩ := (hpos ts).1 hx
            rw [hf] at hfs
            cases hfs
            rw [hp] at hy
            cases hy
        | some p =>
          dsimp only
          have hcons : ∀ ts, posOf ids ((o, i) :: ns) ts ↔ ∃ ts', ts = (i, p) :: ts' ∧ posOf ids ns ts' := by
            intro ts
            rw [hpos]
            constructor
            · rintro ⟨p', ts', rfl, ⟨fs', hfs, hy⟩, hx⟩
              rw [hf] at hfs
              cases hfs
              rw [hp] at hy
              cases hy
              exact ⟨ts', rfl, hx⟩
            · rintro ⟨ts', rfl, hx⟩
              exact ⟨p, ts', rfl, ⟨fs, hf, hp⟩, hx⟩
          by_cases hstop : p = "$."
          · subst hstop
            rw [if_neg (by simp)]
            constructor
            · intro h
              cases hx : extractSentences ids [] ns with
              | error e => rw [hx] at h; cases h
              | ok ss' =>
                rw [hx] at h
                cases h
                obtain ⟨ts', h1, h2⟩ := (extract_iff ids ns [] ss').1 hx
                refine ⟨(i, "$.") :: ts', (hcons _).2 ⟨ts', rfl, h1⟩, .inr ⟨[], i, ts', ss', rfl, by simp, ?_, by simp⟩⟩
                rcases h2 with ⟨h2, rfl⟩ | ⟨s, stop, rest, ss'', rfl, h3, h4, rfl⟩
                · exact .none h2
                · rw [List.nil_append]
                  exact .cons h3 h4
            · rintro ⟨ts, hx, h⟩
              obtain ⟨ts', rfl, hy⟩ := (hcons _).1 hx
              rcases h with ⟨h, _⟩ | ⟨s, stop, rest, ss', he, h3, h4, rfl⟩
              · exact absurd rfl (h _ (.head _))
              · cases s with
                | cons t s =>
                  cases he
                  exact absurd rfl (h3 _ (.head _))
                | nil =>
                  cases he
                  have : extractSentences ids [] ns = .ok ss' := by
                    rw [extract_iff ids ns [] ss']
                    refine ⟨_, hy, ?_⟩
                    cases h4 with
                    | none h => exact .inl ⟨h, rfl⟩
                    | cons h h' => exact .inr ⟨_, _, _, _, rfl, h, h', by simp⟩
                  rw [this]
                  simp
          · rw [if_pos hstop, extract_iff ids ns (toks ++ [i]) ss]
            constructor
            · rintro ⟨ts, h1, h2⟩
              refine ⟨(i, p) :: ts, (hcons _).2 ⟨ts, rfl, h1⟩, ?_⟩
              rcases h2 with ⟨h2, rfl⟩ | ⟨s, stop, rest, ss', rfl, h3, h4, rfl⟩
              · refine .inl ⟨?_, rfl⟩
                intro t ht
                rcases List.mem_cons.1 ht with rfl | ht
                · exact hstop
                · exact h2 t ht
              · refine .inr ⟨(i, p) :: s, stop, rest, ss', rfl, ?_, h4, by simp⟩
                intro t ht
                rcases List.mem_cons.1 ht with rfl | ht
                · exact hstop
                · exact h3 t ht
            · rintro ⟨ts, h1, h2⟩
              obtain ⟨ts', rfl, hy⟩ := (hcons _).1 h1
              refine ⟨ts', hy, ?_⟩
              rcases h2 with ⟨h2, rfl⟩ | ⟨s, stop, rest, ss', he, h3, h4, rfl⟩
              · exact .inl ⟨fun t ht => h2 t (.tail _ ht), rfl⟩
              · cases s with
                | nil =>
                  cases he
                  exact absurd rfl hstop
                | cons t s =>
                  cases he
                  exact .inr ⟨s, stop, rest, ss', rfl, fun t ht => h3 t (.tail _ ht), h4, by simp⟩
    · rw [if_neg hi, extract_iff ids ns toks ss]
      have : ∀ ts, posOf ids ((o, i) :: ns) ts ↔ posOf ids ns ts := by
        intro ts
        unfold posOf
        rw [List.filter_cons, if_neg (by simpa using hi)]
      simp only [this]

/-- **C69 (sentences)**.  For any nodes and any numbers of token nodes, sentences are found if and only if all the tokens have a part of speech; each sentence goes up to the next token `$.`. -/
theorem c69_sentences (nodes : List SaltObj) (ids : List Nat) (ss : List (List Nat)) :
    extractSentences ids [] nodes.zipIdx = .ok ss ↔ ∃ ts, posOf ids nodes.zipIdx ts ∧ SentencesOf ts ss := by
  rw [extract_iff]
  constructor
  · rintro ⟨ts, h1, ⟨h2, rfl⟩ | ⟨s, stop, rest, ss', rfl, h3, h4, rfl⟩⟩
    · exact ⟨ts, h1, .none h2⟩
    · rw [List.nil_append]
      exact ⟨_, h1, .cons h3 h4⟩
  · rintro ⟨ts, h1, h2⟩
    refine ⟨ts, h1, ?_⟩
    cases h2 with
    | none h => exact .inl ⟨h, rfl⟩
    | cons h h' => exact .inr ⟨_, _, _, _, rfl, h, h', by simp⟩

/-- **C69 (sentences contain all tokens)**, partial: if the last token is a full stop, the sentences together are the tokens.  Missing: tokens after the last full stop
(`c69_fails_for_unfinished_sentences`). -/
theorem c69_sentences_complete_partial (ts : List (Nat × String)) (ss : List (List Nat)) (h : SentencesOf ts ss) (hl : ∀ t, ts.getLast? = some t → t.2 = "$.") : ss.flatten = ts.map Prod.fst := by
  induction h with
  | @none ts h =>
    cases hts : ts.getLast? with
    | none =>
      rw [List.getLast?_eq_none_iff] at hts
      subst hts
      rfl
    | some t => exact absurd (hl t hts) (h t (List.mem_of_getLast? hts))
  | @cons s rest stop ss hs h ih =>
    rw [List.flatten_cons, ih]
    · simp
    · intro t ht
      refine hl t ?_
      rw [List.getLast?_append, List.getLast?_cons, ht]
      rfl

/-- **C69 is violated** for tokens after the last full stop (e.g. of a headline): they are in no sentence. -/
theorem c69_fails_for_unfinished_sentences (ts rest : List (Nat × String)) (ss : List (List Nat)) (h : SentencesOf ts ss) (hr : ∀ t ∈ rest, t.2 ≠ "$.") (hl : ∀ t, ts.getLast? = some t → t.2 = "$.") :
    SentencesOf (ts ++ rest) ss ∧ ss.flatten = ts.map Prod.fst := by
  refine ⟨?_, c69_sentences_complete_partial ts ss h hl⟩
  induction h with
  | @none ts h =>
    refine .none ?_
    intro t ht
    rcases List.mem_append.1 ht with ht | ht
    · exact h t ht
    · exact hr t ht
  | @cons s r stop ss hs h ih =>
    rw [List.append_assoc, List.cons_append]
    refine .cons hs (ih ?_)
    intro t ht
    refine hl t ?_
    rw [List.getLast?_append, List.getLast?_cons, ht]
    rfl

/-- token nodes with parts of speech -/
def sampleTokens (ps : List String) : List SaltObj := ps.map (fun p => ({ cls := .token, name := p, elementId := none, xsi := "", labels := [], features := some [("tiger.pos", p)] } : SaltObj))

example : (extractSentences [0, 1, 2, 4, 5] [] (sampleTokens ["NN", "$.", "PPER", "X", "$.", "NN"]).zipIdx).toOption = some [[0, 1], [2, 4]] := by decide +kernel
example : SentencesOf [(0, "NN"), (1, "$."), (2, "PPER"), (4, "$.")] [[0, 1], [2, 4]] :=
  .cons (s := [(0, "NN")]) (by decide) (.cons (s := [(2, "PPER")]) (by decide) (.none (by simp)))

end Dg
