import Verif.Lemmas.Decour
import Verif.Lemmas.MmaxContent

/-! The graph of a DeCour document. -/

namespace Dg
open Dict
namespace DG

/-- the words of some units, numbered from `i` -/
def unitWords (i : Nat) (us : List DecUnit) : List ((DecUnit × DecWord) × Nat) := (us.flatMap (fun u => u.words.map (fun w => (u, w)))).zipIdx i

theorem unitWords_cons (i : Nat) (u : DecUnit) (us : List DecUnit) : unitWords i (u :: us) = (u.words.zipIdx i).map (fun w => ((u, w.1), w.2)) ++ unitWords (i + u.words.length) us := by
  unfold unitWords
  rw [List.flatMap_cons, List.zipIdx_append, List.zipIdx_map]
  simp only [List.length_map]
  rfl

theorem decCalls_perm (ns : String) (us : List DecUnit) : ∀ i, (decCalls ns i us).Perm (us.flatMap (decHead ns) ++ (unitWords i us).flatMap (fun w => decWordCalls ns w.1.1.id (w.1.2, w.2))) := by
  induction us with
  | nil => intro i; exact List.Perm.refl _
  | cons u us ih =>
    intro i
    rw [decCalls, unitWords_cons, List.flatMap_cons, List.flatMap_append, List.flatMap_map, decUnitCalls]
    have h := ih (i + u.words.length)
    refine (List.Perm.append_left _ h).trans ?_
    rw [List.append_assoc, List.append_assoc]
    refine List.Perm.append_left _ ?_
    rw [← List.append_assoc, ← List.append_assoc]
    exact List.Perm.append_right _ List.perm_append_comm

theorem decCalls_tokens (ns : String) (us : List DecUnit) : ∀ i, (decCalls ns i us).flatMap Instr.newTokens = (unitWords i us).map (fun w => decToken w.2) := by
  induction us with
  | nil => intro i; rfl
  | cons u us ih =>
    intro i
    rw [decCalls, List.flatMap_append, ih, unitWords_cons, List.map_append, List.map_map, decUnitCalls, List.flatMap_append, List.flatMap_assoc]
    congr 1
    show [] ++ _ = _
    rw [List.nil_append, List.map_eq_flatMap]
    rfl

theorem decCalls_sentences (ns : String) (us : List DecUnit) (i : Nat) : (decCalls ns i us).flatMap Instr.newSentences = [] := by
  rw [List.flatMap_eq_nil_iff]
  intro x hx
  have := (decCalls_perm ns us i).mem_iff.1 hx
  rcases List.mem_append.1 this with h | h
  · obtain ⟨u, _, h⟩ := List.mem_flatMap.1 h
    simp only [decHead, List.mem_cons, List.not_mem_nil, or_false] at h
    rcases h with rfl | rfl <;> rfl
  · obtain ⟨u, _, h⟩ := List.mem_flatMap.1 h
    simp only [decWordCalls, List.mem_cons, List.not_mem_nil, or_false] at h
    rcases h with rfl | rfl | rfl <;> rfl

/-- what is in the calls for a document -/
theorem mem_decCalls {ns : String} {us : List DecUnit} {k : Nat} {i : Instr} : i ∈ decCalls ns k us ↔
    (∃ u ∈ us, i = .node (.str u.id) [ns, qual ns "unit"] [] ∨ i = .edge (decSource ns u.parent) (.str u.id) [ns, qual ns "discourse"] [("edge_type", strV "dominates")]) ∨
    ∃ w ∈ unitWords k us, i = .node (decToken w.2) [ns, qual ns "token"] (decAttrs ns w.1.2) ∨ i = .token (decToken w.2) ∨ i = .edge (.str w.1.1.id) (decToken w.2) [ns, qual ns "unit"] [("edge_type", strV "spans")] := by
  rw [(decCalls_perm ns us k).mem_iff, List.mem_append, List.mem_flatMap, List.mem_flatMap]
  simp only [decHead, decWordCalls, List.mem_cons, List.not_mem_nil, or_false]

theorem unitWords_unit {k : Nat} {us : List DecUnit} {w} (h : w ∈ unitWords k us) : w.1.1 ∈ us ∧ w.1.2 ∈ w.1.1.words := by
  have h1 : w.1 ∈ us.flatMap (fun u => u.words.map (fun x => (u, x))) := by
    have := List.mem_map_of_mem (f := Prod.fst) h
    unfold unitWords at this
    rwa [List.zipIdx_map_fst] at this
  obtain ⟨u, hu, h1⟩ := List.mem_flatMap.1 h1
  obtain ⟨x, hx, e⟩ := List.mem_map.1 h1
  rw [← e]
  exact ⟨hu, hx⟩

theorem decToken_inj {i j : Nat} (h : decToken i = decToken j) : i = j := by
  unfold decToken at h
  injection h with h
  have h := congrArg String.toList h
  simp only [String.toList_append, List.append_cancel_left_eq, String.toList_ofList] at h
  exact decimal_injective h

theorem unitWords_inj {k : Nat} {us : List DecUnit} {w w'} (h : w ∈ unitWords k us) (h' : w' ∈ unitWords k us) (e : w.2 = w'.2) : w = w' := by
  unfold unitWords at h h'
  have nd : ((us.flatMap (fun u => u.words.map (fun x => (u, x)))).zipIdx k).map Prod.snd |>.Nodup := by
    rw [List.zipIdx_map_snd]
    exact List.nodup_range'
  exact List.inj_on_of_nodup_map nd h h' e

/-! ### the names of the units -/

/-- names of units: they begin with one of five words -/
def UnitName (s : String) : Prop := s = "intro" ∨ s = "conclu" ∨ ∃ x, s = "turn_" ++ x ∨ s = "act_" ++ x ∨ s = "utterance_" ++ x

theorem numbered_act (k : Nat) : numbered "act" k = "act_" ++ String.ofList (decimal k) := by
  unfold numbered
  apply String.toList_inj.1
  simp

theorem turn_names {t : DecTurn} {k : Nat} : ∀ u ∈ t.units k, UnitName u.id ∧ (∀ p, u.parent = some p → p = t.id) := by
  intro u hu
  unfold DecTurn.units at hu
  rcases List.mem_cons.1 hu with rfl | hu
  · exact ⟨.inr (.inr ⟨_, .inl rfl⟩), by simp⟩
  · rcases List.mem_append.1 hu with hu | hu
    · obtain ⟨x, _, rfl⟩ := List.mem_map.1 hu
      exact ⟨.inr (.inr ⟨_, .inr (.inl (numbered_act _))⟩), by simp [eq_comm]⟩
    · obtain ⟨p, _, e⟩ := List.mem_filterMap.1 hu
      cases p with
      | act => simp at e
      | utterance nr text cs =>
        simp only [Option.some.injEq] at e
        subst e
        exact ⟨.inr (.inr ⟨_, .inr (.inr rfl)⟩), by simp [eq_comm]⟩

theorem turns_names (ts : List DecTurn) : ∀ k, ∀ u ∈ turnUnits k ts, UnitName u.id ∧ (∀ p, u.parent = some p → ∃ u' ∈ turnUnits k ts, u'.id = p) := by
  induction ts with
  | nil => intro k u hu; cases hu
  | cons t ts ih =>
    intro k u hu
    rw [turnUnits] at hu ⊢
    rcases List.mem_append.1 hu with hu | hu
    · obtain ⟨h1, h2⟩ := turn_names u hu
      refine ⟨h1, fun p hp => ⟨⟨t.id, none, []⟩, ?_, (h2 p hp).symm⟩⟩
      rw [List.mem_append]
      exact .inl (List.mem_cons_self ..)
    · obtain ⟨h1, h2⟩ := ih _ u hu
      refine ⟨h1, fun p hp => ?_⟩
      obtain ⟨u', h, e⟩ := h2 p hp
      exact ⟨u', List.mem_append_right _ h, e⟩

theorem doc_names (doc : DecDoc) : ∀ u ∈ doc.units, UnitName u.id ∧ (∀ p, u.parent = some p → ∃ u' ∈ doc.units, u'.id = p) := by
  intro u hu
  unfold DecDoc.units at hu ⊢
  rcases List.mem_cons.1 hu with rfl | hu
  · exact ⟨.inl rfl, by simp⟩
  · rcases List.mem_append.1 hu with hu | hu
    · obtain ⟨h1, h2⟩ := turns_names _ _ u hu
      refine ⟨h1, fun p hp => ?_⟩
      obtain ⟨u', h, e⟩ := h2 p hp
      exact ⟨u', List.mem_cons_of_mem _ (List.mem_append_left _ h), e⟩
    · obtain ⟨x, _, rfl⟩ := List.mem_map.1 hu
      exact ⟨.inr (.inl rfl), by simp⟩

theorem prefix_clash {a b x y : String} (h : a ++ x = b ++ y) {n : Nat} (hn : n ≤ a.toList.length) (hn' : n ≤ b.toList.length) (hd : a.toList.take n ≠ b.toList.take n) : False := by
  have h := congrArg (List.take n ∘ String.toList) h
  simp only [Function.comp, String.toList_append, List.take_append_of_le_length hn, List.take_append_of_le_length hn'] at h
  exact hd h

theorem token_not_unit {s : String} (h : UnitName s) (i : Nat) : NodeId.str s ≠ decToken i := by
  intro e
  unfold decToken at e
  injection e with e
  have hl : "token_".toList.length = 6 := by decide
  rcases h with rfl | rfl | ⟨x, rfl | rfl | rfl⟩
  · exact prefix_clash (a := "intro") (b := "token_") (x := "") (y := String.ofList (decimal i)) (n := 2) (by simpa using e) (by decide) (by decide) (by decide)
  · exact prefix_clash (a := "conclu") (b := "token_") (x := "") (y := String.ofList (decimal i)) (n := 2) (by simpa using e) (by decide) (by decide) (by decide)
  · exact prefix_clash e (n := 2) (by decide) (by decide) (by decide)
  · exact prefix_clash e (n := 2) (by decide) (by decide) (by decide)
  · exact prefix_clash e (n := 2) (by decide) (by decide) (by decide)

theorem base_not_unit {s : String} (h : UnitName s) : NodeId.str s ≠ .str "discoursegraph:root_node" := by
  intro e
  injection e with e
  have e : s = "discoursegraph:root_node" ++ "" := by simpa using e
  rcases h with rfl | rfl | ⟨x, rfl | rfl | rfl⟩
  · revert e; decide
  · revert e; decide
  · exact prefix_clash e (n := 2) (by decide) (by decide) (by decide)
  · exact prefix_clash e (n := 2) (by decide) (by decide) (by decide)
  · exact prefix_clash e (n := 2) (by decide) (by decide) (by decide)

theorem base_not_token (i : Nat) : decToken i ≠ .str "discoursegraph:root_node" := by
  intro e
  unfold decToken at e
  injection e with e
  exact prefix_clash (a := "token_") (b := "discoursegraph:root_node") (x := _) (y := "") (n := 2) (by simpa using e) (by decide) (by decide) (by decide)

theorem root_not_token (ns : String) (i : Nat) : decToken i ≠ .str (ns ++ ":root_node") := by
  intro e
  unfold decToken at e
  injection e with e
  have h := congrArg String.toList e
  simp only [String.toList_append, String.toList_ofList] at h
  have : ':' ∈ "token_".toList ++ decimal i := by
    rw [h]
    exact List.mem_append_right _ (by decide)
  rcases List.mem_append.1 this with h | h
  · revert h; decide
  · exact colon_decimal i h

/-! ### the start of the graph -/

/-- the graph before the root of the document is added -/
theorem exbStart_facts (name ns : String) : (∀ m, (exbStart name ns).HasNode m ↔ m = .str "discoursegraph:root_node") ∧
    (∀ m k, k ≠ "layers" → (exbStart name ns).nodeAttr m k = if m = .str "discoursegraph:root_node" ∧ k = "metadata" then some (.dict []) else none) ∧
    (∀ m l, (exbStart name ns).NodeLayer m l ↔ m = .str "discoursegraph:root_node" ∧ l = .str "discoursegraph") ∧ EdgesAre (exbStart name ns) [] := by
  obtain ⟨_, f2, f3, f4, f5⟩ := init_facts "" "discoursegraph" "discoursegraph:root_node" (by decide)
  have he : init "" "discoursegraph" none = init "" "discoursegraph" (some (.str "discoursegraph:root_node")) := by
    rw [init_eq, init_eq]; rfl
  have hn : (exbStart name ns).nodes = (init "" "discoursegraph" (some (.str "discoursegraph:root_node"))).nodes := by
    rw [← he]; rfl
  have ha : (exbStart name ns).adj = (init "" "discoursegraph" (some (.str "discoursegraph:root_node"))).adj := by
    rw [← he]; rfl
  refine ⟨?_, ?_, ?_, ?_⟩
  · intro m
    rw [← f2 m]
    unfold HasNode
    rw [hn]
  · intro m k hk
    rw [← f3 m k hk]
    unfold nodeAttr nodeAttrs
    rw [hn]
  · intro m l
    rw [← f4 m l]
    unfold NodeLayer nodeAttrs
    rw [hn]
  · have hk : ∀ u v, (exbStart name ns).kd? u v = (init "" "discoursegraph" (some (.str "discoursegraph:root_node"))).kd? u v := by
      intro u v
      unfold kd?
      rw [ha]
    exact edgesAre_of_kd? f5 hk

/-- the calls for a document -/
def decScript (ns : String) (doc : DecDoc) : List Instr := .node (.str (ns ++ ":root_node")) [ns] [] :: decCalls ns 1 doc.units

theorem decDoc_words (doc : DecDoc) : doc.words = unitWords 1 doc.units := rfl

theorem DecDoc.fine {doc : DecDoc} : ∀ u ∈ doc.units, ∀ w ∈ u.words, w.Fine := by
  have h0 : ∀ t : XText, ∀ w ∈ XText.words t, w.Fine := by
    intro t w hw
    unfold DecWord.Fine
    rw [words_feats t w hw]
    simp
  have h1 : ∀ ts k, ∀ u ∈ turnUnits k ts, ∀ w ∈ u.words, w.Fine := by
    intro ts
    induction ts with
    | nil => intro k u hu; cases hu
    | cons t ts ih =>
      intro k u hu
      rw [turnUnits] at hu
      rcases List.mem_append.1 hu with hu | hu
      · unfold DecTurn.units at hu
        rcases List.mem_cons.1 hu with rfl | hu
        · intro w hw; cases hw
        · rcases List.mem_append.1 hu with hu | hu
          · obtain ⟨x, _, rfl⟩ := List.mem_map.1 hu
            exact h0 _
          · obtain ⟨p, _, e⟩ := List.mem_filterMap.1 hu
            cases p with
            | act => simp at e
            | utterance nr text cs =>
              simp only [Option.some.injEq] at e
              subst e
              exact uttWords_fine _ _
      · exact ih _ u hu
  intro u hu
  unfold DecDoc.units at hu
  rcases List.mem_cons.1 hu with rfl | hu
  · exact h0 _
  · rcases List.mem_append.1 hu with hu | hu
    · exact h1 _ _ u hu
    · obtain ⟨x, _, rfl⟩ := List.mem_map.1 hu
      exact h0 _

theorem decScript_ok (ns : String) (doc : DecDoc) : ∀ i ∈ decScript ns doc, i.Ok (fun _ => False) := by
  intro i hi
  rcases List.mem_cons.1 hi with rfl | hi
  · exact ⟨by simp, by simp [keys]⟩
  · rcases mem_decCalls.1 hi with ⟨u, hu, rfl | rfl⟩ | ⟨w, hw, rfl | rfl | rfl⟩
    · exact ⟨by simp, by simp [keys]⟩
    · exact ⟨by simp, by simp [keys]⟩
    · obtain ⟨h1, h2⟩ := unitWords_unit hw
      exact ⟨by simp, decAttrs_nodup (DecDoc.fine _ h1 _ h2)⟩
    · trivial
    · exact ⟨by simp, by simp [keys]⟩

/-- reading a document -/
theorem decRead_built {doc : DecDoc} (ho : doc.Ok) (name ns : String) : ∃ g a, DisState ns g ∧ Built (exbStart name ns) (decScript ns doc) g ∧
    ∀ precedence, decRead name ns precedence doc = (if precedence then (do let g' ← batch g.addPrecedenceRelations; return ⟨g', 1 + doc.words.length, a, doc.turns.map DecTurn.id, doc.turns.flatMap (fun t => t.utterances.map DecUnit.id)⟩)
      else .ok ⟨g, 1 + doc.words.length, a, doc.turns.map DecTurn.id, doc.turns.flatMap (fun t => t.utterances.map DecUnit.id)⟩ : Except PyErr DecState) := by
  obtain ⟨hi, hl⟩ := inv_exbStart name ns
  have ds : DisState ns (exbStart name ns) := ⟨hi, hl, rfl⟩
  obtain ⟨g0, r0⟩ := DecRuns.of ds (s := [.node (.str (ns ++ ":root_node")) [ns] []]) (by
    intro i hi
    rw [List.mem_singleton] at hi
    subst hi
    exact ⟨by simp, by simp [keys]⟩)
  obtain ⟨g, a, e, r⟩ := decBody_eq ho (st := ⟨g0, 1, 1, [], []⟩) r0.2.1 r0.2.2 rfl
  have rr := r0.trans r
  obtain ⟨g', e', d', b'⟩ := execs_state ds (decScript_ok ns doc)
  have : g' = g := Except.ok.inj (e'.symm.trans rr.1)
  subst this
  have hstart : decStart name ns = .ok g0 := by
    rw [← r0.1, execs_one]
    rfl
  have hlen : unitLength doc.units = doc.words.length := by
    unfold unitLength
    rw [decDoc_words]
    unfold unitWords
    rw [List.length_zipIdx, List.length_flatMap]
    simp
  refine ⟨g', a, d', b', ?_⟩
  intro precedence
  unfold decRead
  rw [hstart]
  simp only [bind, Except.bind] at e ⊢
  generalize hq1 : decAddIntro ⟨g0, 1, 1, [], []⟩ doc.intro = q1 at e ⊢
  cases q1 with
  | error => cases e
  | ok st1 =>
    dsimp only at e ⊢
    generalize hq2 : doc.turns.foldlM decAddTurn st1 = q2 at e ⊢
    cases q2 with
    | error => cases e
    | ok st2 =>
      dsimp only at e ⊢
      rw [e, ← hlen]
      rfl

/-- the precedence edges, if they are asked for -/
theorem precedence_built {ns : String} {g : DG} (ds : DisState ns g) {precedence : Bool} (hp : precedence = true → 2 ≤ g.tokens.length) :
    ∃ g', (if precedence then batch g.addPrecedenceRelations else .ok g) = .ok g' ∧ Built g (edgeCalls (if precedence then precEdges ns g.root g.tokens else [])) g' := by
  cases precedence with
  | false => exact ⟨g, rfl, built_nil ds.inv ds.layered⟩
  | true =>
    obtain ⟨g1, e1, e2⟩ := precedence_execs ds (hp rfl)
    refine ⟨g1, e1, ?_⟩
    obtain ⟨g2, e3, _, b3⟩ := execs_state ds (s := edgeCalls (precEdges ns g.root g.tokens)) (by
      intro i hi
      obtain ⟨e, he, rfl⟩ := List.mem_map.1 hi
      unfold precEdges at he
      obtain ⟨p, _, rfl⟩ := List.mem_map.1 he
      simp [Instr.Ok, precEdge, keys])
    rw [e2] at e3
    obtain rfl := Except.ok.inj e3
    exact b3

theorem precedence_mentions {ns : String} {g : DG} {precedence : Bool} (hr : g.HasNode g.root) (ht : ∀ t ∈ g.tokens, g.HasNode t) {m : NodeId}
    (h : ∃ i ∈ edgeCalls (if precedence then precEdges ns g.root g.tokens else []), i.Mentions m) : g.HasNode m := by
  obtain ⟨i, hi, hm⟩ := h
  obtain ⟨e, he, rfl⟩ := List.mem_map.1 hi
  cases precedence with
  | false => simp at he
  | true =>
    rw [if_pos rfl] at he
    unfold precEdges at he
    obtain ⟨⟨u, v⟩, hz, rfl⟩ := List.mem_map.1 he
    obtain ⟨hu, hv⟩ := List.of_mem_zip hz
    have hm : m = u ∨ m = v := hm
    rcases hm with rfl | rfl
    · rcases List.mem_cons.1 hu with hu | hu
      · rw [hu]; exact hr
      · exact ht _ hu
    · exact ht _ hv

/-- precedence edges change nothing else -/
theorem precedence_same {ns : String} {g g' : DG} {precedence : Bool} (hr : g.HasNode g.root) (ht : ∀ t ∈ g.tokens, g.HasNode t)
    (b : Built g (edgeCalls (if precedence then precEdges ns g.root g.tokens else [])) g') :
    g'.ns = g.ns ∧ g'.root = g.root ∧ g'.tokens = g.tokens ∧ g'.sentences = g.sentences ∧ (∀ m, g'.HasNode m ↔ g.HasNode m) ∧ (∀ m l, g'.NodeLayer m l ↔ g.NodeLayer m l) ∧ (∀ m k, k ≠ "layers" → g'.nodeAttr m k = g.nodeAttr m k) := by
  have hnew := fun m => precedence_mentions (ns := ns) (precedence := precedence) hr ht (m := m)
  refine ⟨b.ns, b.root, ?_, ?_, ?_, ?_, ?_⟩
  · rw [b.tokens, edgeCalls_tokens, List.append_nil]
  · rw [b.sentences, edgeCalls_sentences, List.append_nil]
  · intro m
    rw [b.nodes]
    exact ⟨fun h => h.elim id (hnew m), .inl⟩
  · intro m l
    rw [b.layer]
    constructor
    · rintro (h | ⟨i, hi, hg⟩ | ⟨h1, h2, _⟩)
      · exact h
      · obtain ⟨e, _, rfl⟩ := List.mem_map.1 hi
        exact absurd hg (by simp [Instr.GivesLayer])
      · exact absurd (hnew m (implicit_mention h2)) h1
    · exact .inl
  · intro m k hk
    rw [b.attr m k hk, lastWrite_edges, Option.none_or]

theorem decSpec (ns : String) (doc : DecDoc) : ((decScript ns doc).filterMap Instr.spec).Perm (decEdges ns doc) := by
  unfold decScript
  rw [show List.filterMap Instr.spec (.node (.str (ns ++ ":root_node")) [ns] [] :: decCalls ns 1 doc.units) = (decCalls ns 1 doc.units).filterMap Instr.spec from rfl]
  refine ((decCalls_perm ns doc.units 1).filterMap _).trans ?_
  rw [List.filterMap_append, List.filterMap_flatMap, List.filterMap_flatMap]
  unfold decEdges
  rw [decDoc_words, List.map_eq_flatMap, List.map_eq_flatMap]
  exact List.Perm.refl _

theorem decContent_of {doc : DecDoc} {name ns : String} {precedence : Bool} {g g' : DG} (b : Built (exbStart name ns) (decScript ns doc) g) (b' : Built g (edgeCalls (if precedence then precEdges ns g.root g.tokens else [])) g') : DecContent ns precedence doc g' := by
  obtain ⟨f1, f2, f3, f4⟩ := exbStart_facts name ns
  have hroot : g.root = .str (ns ++ ":root_node") := b.root
  have htok : g.tokens = doc.words.map (fun w => decToken w.2) := by
    rw [b.tokens]
    show [] ++ ([] ++ _) = _
    rw [List.nil_append, List.nil_append]
    exact decCalls_tokens ns doc.units 1
  have hment : ∀ m, (∃ i ∈ decScript ns doc, i.Mentions m) ↔ m = .str (ns ++ ":root_node") ∨ (∃ u ∈ doc.units, m = .str u.id) ∨ ∃ w ∈ doc.words, m = decToken w.2 := by
    intro m
    constructor
    · rintro ⟨i, hi, hm⟩
      rcases List.mem_cons.1 hi with rfl | hi
      · exact .inl hm
      · rcases mem_decCalls.1 hi with ⟨u, hu, rfl | rfl⟩ | ⟨w, hw, rfl | rfl | rfl⟩
        · exact .inr (.inl ⟨u, hu, hm⟩)
        · rcases hm with rfl | rfl
          · cases hp : u.parent with
            | none => exact .inl rfl
            | some p =>
              obtain ⟨u', hu', rfl⟩ := (doc_names doc u hu).2 p hp
              exact .inr (.inl ⟨u', hu', rfl⟩)
          · exact .inr (.inl ⟨u, hu, rfl⟩)
        · exact .inr (.inr ⟨w, hw, hm⟩)
        · exact absurd hm (by simp [Instr.Mentions])
        · rcases hm with rfl | rfl
          · exact .inr (.inl ⟨_, (unitWords_unit hw).1, rfl⟩)
          · exact .inr (.inr ⟨w, hw, rfl⟩)
    · rintro (rfl | ⟨u, hu, rfl⟩ | ⟨w, hw, rfl⟩)
      · exact ⟨_, List.mem_cons_self .., rfl⟩
      · exact ⟨_, List.mem_cons_of_mem _ (mem_decCalls.2 (.inl ⟨u, hu, .inl rfl⟩)), rfl⟩
      · exact ⟨_, List.mem_cons_of_mem _ (mem_decCalls.2 (.inr ⟨w, hw, .inl rfl⟩)), rfl⟩
  have hnodes : ∀ m, g.HasNode m ↔ m = g.root ∨ m = .str "discoursegraph:root_node" ∨ (∃ u ∈ doc.units, m = .str u.id) ∨ ∃ w ∈ doc.words, m = decToken w.2 := by
    intro m
    rw [b.nodes, hment, f1, hroot]
    exact or_left_comm
  have hgr : g.HasNode g.root := (hnodes _).2 (.inl rfl)
  have hgt : ∀ t ∈ g.tokens, g.HasNode t := by
    intro t ht
    rw [htok] at ht
    obtain ⟨w, hw, rfl⟩ := List.mem_map.1 ht
    exact (hnodes _).2 (.inr (.inr (.inr ⟨w, hw, rfl⟩)))
  obtain ⟨s1, s2, s3, s4, s5, s6, s7⟩ := precedence_same hgr hgt b'
  refine ⟨?_, ?_, ?_, ?_, ?_, ?_, ?_, ?_, ?_⟩
  · rw [s1, b.ns]; rfl
  · rw [s2, hroot]
  · rw [s3, htok]
  · rw [s4, b.sentences]
    show [] ++ ([] ++ _) = _
    rw [List.nil_append, List.nil_append]
    exact decCalls_sentences ns doc.units 1
  · intro m
    rw [s5, hnodes, s2]
  · have h1 : EdgesAre g ([] ++ decEdges ns doc) := EdgesAre.built (es' := decEdges ns doc) f4 b
      (fun u v ls at' => by rw [mem_spec]; exact (decSpec ns doc).mem_iff) (fun u v => by rw [count_spec]; exact (decSpec ns doc).countP_eq _)
    rw [s2, s3]
    exact EdgesAre.built (es' := if precedence then precEdges ns g.root g.tokens else []) h1 b' (fun u v ls at' => mem_edgeCalls u v ls at') (fun u v => count_edgeCalls _ u v)
  · intro m l
    rw [s6, s2, b.layer, f3, hroot]
    constructor
    · rintro (h | ⟨i, hi, hg⟩ | ⟨h1, h2, rfl⟩)
      · exact .inr (.inl h)
      · rcases List.mem_cons.1 hi with rfl | hi
        · exact .inl (by simpa [Instr.GivesLayer] using hg)
        · rcases mem_decCalls.1 hi with ⟨u, hu, rfl | rfl⟩ | ⟨w, hw, rfl | rfl | rfl⟩
          · exact .inr (.inr (.inl ⟨u, hu, by simpa [Instr.GivesLayer] using hg⟩))
          · exact absurd hg (by simp [Instr.GivesLayer])
          · exact .inr (.inr (.inr ⟨w, hw, by simpa [Instr.GivesLayer] using hg⟩))
          · exact absurd hg (by simp [Instr.GivesLayer])
          · exact absurd hg (by simp [Instr.GivesLayer])
      · rcases (hment m).1 (implicit_mention h2) with h | ⟨u, hu, h⟩ | ⟨w, hw, h⟩
        · exact .inl ⟨h, rfl⟩
        · exact .inr (.inr (.inl ⟨u, hu, h, by simp [exbStart]⟩))
        · exact .inr (.inr (.inr ⟨w, hw, h, by simp [exbStart]⟩))
    · rintro (⟨rfl, rfl⟩ | h | ⟨u, hu, rfl, hl⟩ | ⟨w, hw, rfl, hl⟩)
      · exact .inr (.inl ⟨_, List.mem_cons_self .., by simp [Instr.GivesLayer]⟩)
      · exact .inl h
      · exact .inr (.inl ⟨_, List.mem_cons_of_mem _ (mem_decCalls.2 (.inl ⟨u, hu, .inl rfl⟩)), by simpa [Instr.GivesLayer] using hl⟩)
      · exact .inr (.inl ⟨_, List.mem_cons_of_mem _ (mem_decCalls.2 (.inr ⟨w, hw, .inl rfl⟩)), by simpa [Instr.GivesLayer] using hl⟩)
  · intro w hw k hk
    rw [s7 _ _ hk, b.attr _ _ hk, f2 _ _ hk, if_neg (fun h => base_not_token _ h.1), Option.or_none]
    refine lastWrite_node' (decScript_ok ns doc) (List.mem_cons_of_mem _ (mem_decCalls.2 (.inr ⟨w, hw, .inl rfl⟩))) ?_ k
    intro ls' d' hi
    rcases List.mem_cons.1 hi with h | hi
    · injection h with h _ h'; exact .inr h'
    · rcases mem_decCalls.1 hi with ⟨u, hu, h | h⟩ | ⟨w', hw', h | h | h⟩
      · injection h with h _ h'; exact .inr h'
      · cases h
      · injection h with h _ h'
        obtain rfl := unitWords_inj hw hw' (decToken_inj h)
        exact .inl h'
      · cases h
      · cases h
  · intro m k hk hm
    rw [s7 _ _ hk, b.attr _ _ hk, f2 _ _ hk, lastWrite_none, Option.none_or]
    intro i hi
    rcases List.mem_cons.1 hi with rfl | hi
    · simp [Instr.write, find]
    · rcases mem_decCalls.1 hi with ⟨u, hu, rfl | rfl⟩ | ⟨w', hw', rfl | rfl | rfl⟩
      · simp [Instr.write, find]
      · rfl
      · simp only [Instr.write]
        rw [if_neg (fun h => hm w' hw' h)]
      · rfl
      · rfl

/-- the whole reader -/
theorem decContent {doc : DecDoc} (ho : doc.Ok) (name ns : String) {precedence : Bool} (hp : precedence = true → 2 ≤ doc.words.length) :
    ∃ st, decRead name ns precedence doc = .ok st ∧ DecContent ns precedence doc st.g ∧ st.turns = doc.turns.map DecTurn.id ∧ st.utterances = doc.turns.flatMap (fun t => t.utterances.map DecUnit.id) ∧ st.g.name = name ∧ Inv st.g := by
  obtain ⟨g, a, ds, b, e⟩ := decRead_built ho name ns
  have htok : g.tokens.length = doc.words.length := by
    rw [b.tokens]
    show ([] ++ ([] ++ (decCalls ns 1 doc.units).flatMap Instr.newTokens) : List NodeId).length = _
    rw [List.nil_append, List.nil_append, decCalls_tokens ns doc.units 1, List.length_map]
    rfl
  obtain ⟨g', e', b'⟩ := precedence_built ds (precedence := precedence) (fun h => by rw [htok]; exact hp h)
  refine ⟨⟨g', 1 + doc.words.length, a, doc.turns.map DecTurn.id, doc.turns.flatMap (fun t => t.utterances.map DecUnit.id)⟩, ?_, decContent_of b b', rfl, rfl, b'.name.trans b.name, b'.inv⟩
  rw [e precedence]
  cases precedence with
  | false =>
    obtain rfl := Except.ok.inj e'
    rfl
  | true =>
    simp only [if_true] at e' ⊢
    rw [e']
    rfl

end DG
end Dg
