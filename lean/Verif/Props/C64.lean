import Verif.Lemmas.DecourRead
import Verif.Props.C59Tree
import Verif.Props.C58
import Verif.Lemmas.SpanSpec
import Batteries.Lean.Except

/-! # C64: DeCour files -/

namespace Dg
open Dict
namespace DG

variable {name ns : String} {precedence : Bool} {doc : DecDoc}

/-- **C64 (content)**.  Reading a DeCour document that can be read gives the graph described by `DecContent`: exactly the nodes, edges, layers and annotations of its units and words; and the lists of turns and utterances in document order. -/
theorem c64_content (ho : doc.Ok) (name ns : String) (hp : precedence = true → 2 ≤ doc.words.length) :
    ∃ st, decRead name ns precedence doc = .ok st ∧ DecContent ns precedence doc st.g ∧ st.turns = doc.turns.map DecTurn.id ∧ st.utterances = doc.turns.flatMap (fun t => t.utterances.map DecUnit.id) ∧ st.g.name = name := by
  obtain ⟨st, h1, h2, h3, h4, h5, _⟩ := decContent ho name ns hp
  exact ⟨st, h1, h2, h3, h4, h5⟩

/-! ### which documents can be read -/

theorem bind_ok_iff {α β : Type} {x : Except PyErr α} {f : α → Except PyErr β} {b : β} : (x >>= f) = .ok b ↔ ∃ a, x = .ok a ∧ f a = .ok b := by
  cases x with
  | error e => simp [bind, Except.bind]
  | ok a => simp [bind, Except.bind]

theorem foldlM_all {α β : Type} {f : β → α → Except PyErr β} (l : List α) : ∀ {b b' : β}, l.foldlM f b = .ok b' → ∀ x ∈ l, ∃ c c', f c x = .ok c' := by
  induction l with
  | nil => intro b b' _ x hx; cases hx
  | cons y l ih =>
    intro b b' h x hx
    rw [List.foldlM_cons, bind_ok_iff] at h
    obtain ⟨c, h1, h2⟩ := h
    rcases List.mem_cons.1 hx with rfl | hx
    · exact ⟨b, c, h1⟩
    · exact ih h2 x hx

theorem decSplit_some {t : XText} {l} (h : decSplit t = .ok l) : t ≠ none ∧ l = splitWs (t.getD []) := by
  cases t with
  | none => cases h
  | some x => exact ⟨by simp, (Except.ok.inj h).symm⟩

theorem decAddSpan_some {u : String} {t : XText} {st st' : DecState} (h : decAddSpan u t st = .ok st') : t ≠ none := by
  unfold decAddSpan at h
  rw [bind_ok_iff] at h
  obtain ⟨_, h, _⟩ := h
  exact (decSplit_some h).1

theorem listAt_lt {l : List (List Char)} {i : Nat} {x} (h : listAt l i = .ok x) : i < l.length := by
  unfold listAt at h
  cases hi : l[i]? with
  | none => rw [hi] at h; cases h
  | some y => exact (List.getElem?_eq_some_iff.1 hi).1

theorem decAddPart_ok {turn : String} {st st' : DecState} {p : DecPart} (h : decAddPart turn st p = .ok st') : p.Ok := by
  cases p with
  | act => trivial
  | utterance nr text cs =>
    cases nr with
    | none => cases h
    | some nr =>
      refine ⟨by simp, ?_⟩
      simp only [decAddPart, bind_ok_iff] at h
      obtain ⟨g1, _, h⟩ := h
      unfold decAddUtterance at h
      rw [bind_ok_iff] at h
      obtain ⟨cs', hcs, h⟩ := h
      split at h
      case h_2 => cases h
      case h_1 norm lem pos =>
        rw [mapE_ok] at hcs
        rw [bind_ok_iff] at h
        obtain ⟨ws, hws, h⟩ := h
        rw [bind_ok_iff] at h
        obtain ⟨st1, hf, _⟩ := h
        obtain ⟨ht, hw⟩ := decSplit_some hws
        obtain ⟨t, rfl⟩ := Option.ne_none_iff_exists'.1 ht
        cases hcs with
        | @cons a _ as _ ha hcs =>
          cases hcs with
          | @cons b _ bs _ hb hcs =>
            cases hcs with
            | @cons c _ cs _ hc hcs =>
              cases hcs
              obtain ⟨ha', rfl⟩ := decSplit_some ha
              obtain ⟨hb', rfl⟩ := decSplit_some hb
              obtain ⟨hc', rfl⟩ := decSplit_some hc
              obtain ⟨a, rfl⟩ := Option.ne_none_iff_exists'.1 ha'
              obtain ⟨b, rfl⟩ := Option.ne_none_iff_exists'.1 hb'
              obtain ⟨c, rfl⟩ := Option.ne_none_iff_exists'.1 hc'
              simp only [Option.getD_some] at hf hw
              refine ⟨t, a, b, c, rfl, rfl, ?_⟩
              have hlt : ∀ i, i < (splitWs t).length → i < (splitWs a).length ∧ i < (splitWs b).length ∧ i < (splitWs c).length := by
                intro i hi
                have hm : ((splitWs t)[i], i) ∈ ws.zipIdx := by
                  rw [List.mem_zipIdx_iff_getElem?, hw]
                  exact List.getElem?_eq_getElem hi
                obtain ⟨s, s', hd⟩ := foldlM_all _ hf _ hm
                simp only [decAddWord, bind_ok_iff] at hd
                obtain ⟨_, h1, _, h2, _, h3, _⟩ := hd
                exact ⟨listAt_lt h1, listAt_lt h2, listAt_lt h3⟩
              refine ⟨?_, ?_, ?_⟩
              · by_contra hn; have := (hlt (splitWs a).length (by omega)).1; omega
              · by_contra hn; have := (hlt (splitWs b).length (by omega)).2.1; omega
              · by_contra hn; have := (hlt (splitWs c).length (by omega)).2.2; omega

theorem decAddTurn_ok {st st' : DecState} {t : DecTurn} (h : decAddTurn st t = .ok st') : t.nr ≠ none ∧ (∀ x, t.acts.head? = some x → x ≠ none) ∧ ∀ p ∈ t.parts, p.Ok := by
  unfold decAddTurn at h
  cases hn : t.nr with
  | none => rw [hn] at h; cases h
  | some nr =>
    rw [hn] at h
    simp only [bind_ok_iff] at h
    obtain ⟨g1, _, st1, h1, h2⟩ := h
    refine ⟨by simp, ?_, ?_⟩
    · intro x hx
      unfold decAddAct at h1
      rw [show t.parts.findSome? DecPart.act? = t.acts.head? from findSome_acts t.parts, hx] at h1
      simp only [bind_ok_iff] at h1
      obtain ⟨_, _, _, h1, _⟩ := h1
      exact decAddSpan_some h1
    · intro p hp
      obtain ⟨_, _, h⟩ := foldlM_all _ h2 p hp
      exact decAddPart_ok h

/-- **C64 (exactly these documents)**.  A document is read (without precedence edges) if and only if it has an introduction with text, all turns and utterances have a number, first acts, utterances and the conclusion have text, and each utterance has three children with text: at least as many normal forms, lemmas and parts of speech as words. -/
theorem c64_accepts (name ns : String) (doc : DecDoc) : (decRead name ns false doc).isOk = true ↔ doc.Ok := by
  constructor
  · intro h
    cases hr : decRead name ns false doc with
    | error => rw [hr] at h; cases h
    | ok st =>
      unfold decRead at hr
      simp only [bind_ok_iff] at hr
      obtain ⟨g0, _, st1, h1, st2, h2, st3, h3, _⟩ := hr
      refine ⟨?_, ?_, ?_⟩
      · unfold decAddIntro at h1
        rw [bind_ok_iff] at h1
        obtain ⟨_, _, h1⟩ := h1
        cases hi : doc.intro with
        | none => rw [hi] at h1; cases h1
        | some t =>
          rw [hi] at h1
          obtain ⟨x, rfl⟩ := Option.ne_none_iff_exists'.1 (decAddSpan_some h1)
          exact ⟨x, rfl⟩
      · intro t ht
        rw [ht] at h3
        simp only [decAddConclu, bind_ok_iff] at h3
        obtain ⟨_, _, h3⟩ := h3
        exact decAddSpan_some h3
      · intro t ht
        obtain ⟨_, _, h⟩ := foldlM_all _ h2 t ht
        exact decAddTurn_ok h
  · intro h
    obtain ⟨st, e, _⟩ := c64_content (precedence := false) h name ns (by simp)
    rw [e]; rfl

/-! ### the text -/

/-- the words of a part -/
def partText : DecPart → List (List Char)
  | .act t => splitWs (t.getD [])
  | .utterance _ t _ => splitWs (t.getD [])

/-- the words of the document, in the order in which they are written -/
def docText (doc : DecDoc) : List (List Char) :=
  splitWs ((doc.intro.bind id).getD []) ++ (doc.turns.flatMap (fun t => t.parts.flatMap partText) ++ splitWs ((doc.conclu.bind id).getD []))

theorem words_word (t : XText) : (XText.words t).map DecWord.word = splitWs (t.getD []) := by
  unfold XText.words
  rw [List.map_map]
  simp [Function.comp_def]

theorem uttWords_word {text : XText} {cs : List XText} {nr : Option String} (h : (DecPart.utterance nr text cs).Ok) : (uttWords text cs).map DecWord.word = splitWs (text.getD []) := by
  obtain ⟨_, t, a, b, c, rfl, rfl, h1, h2, h3⟩ := h
  rw [uttWords_some, List.map_map]
  have : (fun w : List Char × List Char × List Char × List Char => w.1) = Prod.fst := rfl
  rw [show (DecWord.word ∘ fun w : List Char × List Char × List Char × List Char => (⟨w.1, [("norm", w.2.1), ("lemma", w.2.2.1), ("pos", w.2.2.2)]⟩ : DecWord)) = Prod.fst from rfl]
  rw [List.map_fst_zip]
  · rfl
  · simp only [List.length_zip]; omega

/-- the words of the units -/
def unitText (us : List DecUnit) : List (List Char) := us.flatMap (fun u => u.words.map DecWord.word)

theorem words_unitText (doc : DecDoc) : doc.words.map (fun w => w.1.2.word) = unitText doc.units := by
  rw [decDoc_words]
  unfold unitWords unitText
  rw [show (fun w : (DecUnit × DecWord) × Nat => w.1.2.word) = (fun p : DecUnit × DecWord => p.2.word) ∘ Prod.fst from rfl, ← List.map_map, List.zipIdx_map_fst, List.map_flatMap]
  simp only [List.map_map]
  rfl

/-- a turn is written as the reader expects it: at most one act, and it comes first -/
def _root_.Dg.DecTurn.ActFirst (t : DecTurn) : Prop := t.parts.tail.filterMap DecPart.act? = []

theorem parts_text {turn : String} (ps : List DecPart) (hp : ∀ p ∈ ps, p.Ok) (hn : ps.filterMap DecPart.act? = []) : unitText (partUnits turn ps) = ps.flatMap partText := by
  induction ps with
  | nil => rfl
  | cons p ps ih =>
    cases p with
    | act x => exact absurd hn (by simp [DecPart.act?])
    | utterance nr text cs =>
      have hu : partUnits turn (.utterance nr text cs :: ps) = ⟨"utterance_" ++ nr.getD "", some turn, uttWords text cs⟩ :: partUnits turn ps := rfl
      rw [hu, List.flatMap_cons, ← ih (fun p h => hp p (List.mem_cons_of_mem _ h)) hn]
      unfold unitText
      rw [List.flatMap_cons, uttWords_word (hp _ (List.mem_cons_self ..))]
      rfl

theorem unitText_append (us us' : List DecUnit) : unitText (us ++ us') = unitText us ++ unitText us' := List.flatMap_append ..

theorem turn_text {t : DecTurn} (hp : ∀ p ∈ t.parts, p.Ok) (ha : t.ActFirst) (k : Nat) : unitText (t.units k) = t.parts.flatMap partText := by
  rw [turn_units, show ∀ (u : DecUnit) us, u :: us = [u] ++ us from fun _ _ => rfl, unitText_append, unitText_append]
  unfold DecTurn.ActFirst at ha
  unfold DecTurn.acts
  cases hps : t.parts with
  | nil => rfl
  | cons p ps =>
    rw [hps] at ha hp
    have hps' := fun p h => hp p (List.mem_cons_of_mem _ h)
    cases p with
    | act x =>
      have hu : partUnits t.id (.act x :: ps) = partUnits t.id ps := rfl
      rw [hu, parts_text ps hps' ha, List.flatMap_cons]
      show [] ++ (unitText [⟨_, _, XText.words x⟩] ++ _) = _
      unfold unitText
      rw [List.flatMap_cons, List.flatMap_nil, List.append_nil, words_word]
      rfl
    | utterance nr text cs =>
      have hz : (DecPart.utterance nr text cs :: ps).filterMap DecPart.act? = [] := ha
      rw [parts_text _ hp hz, hz]
      rfl

theorem turns_text (ts : List DecTurn) (hp : ∀ t ∈ ts, (∀ p ∈ t.parts, p.Ok) ∧ t.ActFirst) : ∀ k, unitText (turnUnits k ts) = ts.flatMap (fun t => t.parts.flatMap partText) := by
  induction ts with
  | nil => intro k; rfl
  | cons t ts ih =>
    intro k
    obtain ⟨h1, h2⟩ := hp t (by simp)
    rw [turnUnits, unitText_append, turn_text h1 h2, ih (fun t h => hp t (List.mem_cons_of_mem _ h)), List.flatMap_cons]

theorem doc_text (ho : doc.Ok) (ha : ∀ t ∈ doc.turns, t.ActFirst) : unitText doc.units = docText doc := by
  unfold DecDoc.units docText
  rw [show ∀ (u : DecUnit) us, u :: us = [u] ++ us from fun _ _ => rfl, unitText_append, unitText_append, turns_text doc.turns (fun t ht => ⟨(ho.turns t ht).2.2, ha t ht⟩)]
  congr 1
  · unfold unitText
    rw [List.flatMap_cons, List.flatMap_nil, List.append_nil, words_word]
  · congr 1
    cases doc.conclu with
    | none => rfl
    | some t =>
      unfold unitText
      rw [Option.toList_some, List.map_cons, List.map_nil, List.flatMap_cons, List.flatMap_nil, List.append_nil, words_word]
      rfl

/-- **C64 (text; partial)**.  If each turn has at most one act, at its beginning, the tokens of the graph, in the order of `tokens`, are the words of the document in the order in which they are written.  Missing: turns with several acts, or with an act after an utterance; for these the statement is false, see `c64_fails_text`. -/
theorem c64_text_partial (ho : doc.Ok) (ha : ∀ t ∈ doc.turns, t.ActFirst) (name ns : String) (hp : precedence = true → 2 ≤ doc.words.length) :
    ∃ st, decRead name ns precedence doc = .ok st ∧ st.g.tokens.Nodup ∧ st.g.tokens.map (fun t => st.g.nodeAttr t (qual ns "token")) = (docText doc).map (fun w => some (strVal w)) := by
  obtain ⟨st, e, hc, _⟩ := c64_content ho name ns hp
  refine ⟨st, e, ?_, ?_⟩
  · rw [hc.tokens]
    have nd : (doc.words.map Prod.snd).Nodup := by
      unfold DecDoc.words
      rw [List.zipIdx_map_snd]
      exact List.nodup_range'
    rw [show (fun w : (DecUnit × DecWord) × Nat => decToken w.2) = decToken ∘ Prod.snd from rfl, ← List.map_map]
    exact nd.map (fun a b h => decToken_inj h)
  · rw [hc.tokens, List.map_map, ← doc_text ho ha, ← words_unitText, List.map_map]
    apply List.map_congr_left
    intro w hw
    have hl : qual ns "token" ≠ "layers" := qual_ne_plain (by decide)
    show st.g.nodeAttr (decToken w.2) (qual ns "token") = some (strVal w.1.2.word)
    rw [hc.words w hw _ hl]
    obtain ⟨h1, h2⟩ := unitWords_unit hw
    have := DecDoc.fine _ h1 _ h2
    exact mem_find (decAttrs_nodup this) (by unfold decAttrs; simp)

/-! ### turns as the reader sees them -/

/-- the parts of a turn as the reader sees them: the first act, then the utterances -/
def _root_.Dg.DecTurn.normal (t : DecTurn) : DecTurn :=
  ⟨t.nr, (t.acts.take 1).map DecPart.act ++ t.parts.filter (fun p => p.act?.isNone)⟩

theorem acts_normal (t : DecTurn) : t.normal.acts.head? = t.acts.head? := by
  unfold DecTurn.normal
  generalize hx : t.acts = xs
  have hf : ∀ ps : List DecPart, (ps.filter (fun p => p.act?.isNone)).filterMap DecPart.act? = [] := by
    intro ps
    rw [List.filterMap_eq_nil_iff]
    intro p hp
    have := (List.mem_filter.1 hp).2
    simpa using this
  unfold DecTurn.acts
  dsimp only
  rw [List.filterMap_append, hf]
  cases xs <;> rfl

theorem fold_normal (turn : String) (ps : List DecPart) : ∀ st, (ps.filter (fun p => p.act?.isNone)).foldlM (decAddPart turn) st = ps.foldlM (decAddPart turn) st := by
  induction ps with
  | nil => intro st; rfl
  | cons p ps ih =>
    intro st
    cases p with
    | act x =>
      rw [List.foldlM_cons]
      exact ih st
    | utterance nr text cs =>
      rw [List.filter_cons_of_pos (by rfl), List.foldlM_cons, List.foldlM_cons]
      congr 1
      funext st'
      exact ih st'

theorem decAddTurn_normal (st : DecState) (t : DecTurn) : decAddTurn st t.normal = decAddTurn st t := by
  have hnr : t.normal.nr = t.nr := rfl
  have hact : ∀ u st, decAddAct u t.normal st = decAddAct u t st := by
    intro u st
    unfold decAddAct
    rw [show t.normal.parts.findSome? DecPart.act? = t.normal.acts.head? from findSome_acts _, show t.parts.findSome? DecPart.act? = t.acts.head? from findSome_acts _, acts_normal]
  unfold decAddTurn
  rw [hnr]
  cases t.nr with
  | none => rfl
  | some nr =>
    simp only [hact]
    have : ∀ u st, t.normal.parts.foldlM (decAddPart u) st = t.parts.foldlM (decAddPart u) st := by
      intro u st
      unfold DecTurn.normal
      rw [List.foldlM_append, ← fold_normal u t.parts]
      cases t.acts with
      | nil => rfl
      | cons x xs => rfl
    simp only [this]

/-- **C64 (negative: acts)**.  The reader does not distinguish a document from one in which all acts of a turn but the first are deleted and the first act is moved to the beginning of the turn. -/
theorem c64_fails_acts (name ns : String) (precedence : Bool) (doc : DecDoc) : decRead name ns precedence ⟨doc.intro, doc.turns.map DecTurn.normal, doc.conclu⟩ = decRead name ns precedence doc := by
  unfold decRead
  dsimp only
  simp only [List.foldlM_map, decAddTurn_normal]

/-! ### one unit for each word -/

/-- the number of an utterance -/
def _root_.Dg.DecPart.uttNr : DecPart → Option (Option String)
  | .act _ => none
  | .utterance nr _ _ => some nr

/-- turns have different numbers, and so have utterances; the namespace is not one that would make the root look like a turn or an utterance -/
structure _root_.Dg.DecDoc.Distinct (doc : DecDoc) (ns : String) : Prop where
  turns : (doc.turns.map DecTurn.nr).Nodup
  utterances : (doc.turns.flatMap (fun t => t.parts.filterMap DecPart.uttNr)).Nodup
  root : ¬ "turn_".toList <+: ns.toList ∧ ¬ "utterance_".toList <+: ns.toList

theorem string_append_inj {a b c : String} (h : a ++ b = a ++ c) : b = c := by
  have := congrArg String.toList h
  simp only [String.toList_append, List.append_cancel_left_eq] at this
  exact String.toList_inj.1 this

/-- the names of the acts -/
def actIds (ts : List DecTurn) : Nat → List String := match ts with
  | [] => fun _ => []
  | t :: ts => fun k => (t.acts.take 1).map (fun _ => numbered "act" (k + 1)) ++ actIds ts (k + if t.acts = [] then 0 else 1)

theorem turn_ids_perm (ts : List DecTurn) : ∀ k, ((turnUnits k ts).map DecUnit.id).Perm (ts.map DecTurn.id ++ (actIds ts k ++ (ts.flatMap (fun t => t.parts.filterMap DecPart.uttNr)).map (fun nr => "utterance_" ++ nr.getD ""))) := by
  induction ts with
  | nil => intro k; exact List.Perm.refl _
  | cons t ts ih =>
    intro k
    have hu : t.utterances.map DecUnit.id = (t.parts.filterMap DecPart.uttNr).map (fun nr => "utterance_" ++ nr.getD "") := by
      unfold DecTurn.utterances
      generalize t.parts = ps
      generalize t.id = i
      induction ps with
      | nil => rfl
      | cons p ps ih =>
        cases p with
        | act => exact ih
        | utterance nr text cs => exact congrArg (List.cons _) ih
    rw [turnUnits, List.map_append, DecTurn.units, List.map_cons, List.map_append, hu, List.map_map, actIds, List.flatMap_cons, List.map_append, List.map_cons]
    refine List.Perm.cons _ ?_
    have h := ih (k + if t.acts = [] then 0 else 1)
    refine (List.Perm.append_left _ h).trans ?_
    show (((t.acts.take 1).map (fun _ => numbered "act" (k + 1)) ++ _) ++ _).Perm (ts.map DecTurn.id ++ (((t.acts.take 1).map (fun _ => numbered "act" (k + 1)) ++ actIds ts (k + if t.acts = [] then 0 else 1)) ++ _))
    generalize (t.acts.take 1).map (fun _ => numbered "act" (k + 1)) = A
    generalize List.map (fun nr : Option String => "utterance_" ++ nr.getD "") (t.parts.filterMap DecPart.uttNr) = B
    generalize ts.map DecTurn.id = C
    generalize actIds ts (k + if t.acts = [] then 0 else 1) = D
    generalize List.map (fun nr : Option String => "utterance_" ++ nr.getD "") (ts.flatMap (fun t => t.parts.filterMap DecPart.uttNr)) = E
    letI : DecidableEq String := inferInstance
    rw [List.perm_iff_count]
    intro x
    simp only [List.count_append]
    omega

theorem actIds_gt (ts : List DecTurn) : ∀ k, ∀ s ∈ actIds ts k, ∃ j, k < j ∧ s = numbered "act" j := by
  induction ts with
  | nil => intro k s hs; cases hs
  | cons t ts ih =>
    intro k s hs
    rw [actIds] at hs
    rcases List.mem_append.1 hs with hs | hs
    · obtain ⟨_, _, rfl⟩ := List.mem_map.1 hs
      exact ⟨k + 1, by omega, rfl⟩
    · obtain ⟨j, hj, e⟩ := ih _ s hs
      exact ⟨j, by omega, e⟩

theorem numbered_inj {a : String} {i j : Nat} (h : numbered a i = numbered a j) : i = j := by
  unfold numbered at h
  have h := string_append_inj h
  exact decimal_injective (List.cons.inj (String.ofList_injective h)).2

theorem actIds_nodup (ts : List DecTurn) : ∀ k, (actIds ts k).Nodup := by
  induction ts with
  | nil => intro k; exact List.nodup_nil
  | cons t ts ih =>
    intro k
    rw [actIds, List.nodup_append']
    refine ⟨?_, ih _, ?_⟩
    · cases t.acts <;> simp
    · intro s hs hs'
      obtain ⟨x, hx, rfl⟩ := List.mem_map.1 hs
      obtain ⟨j, hj, e⟩ := actIds_gt _ _ _ hs'
      have := numbered_inj e
      have hne : t.acts ≠ [] := by intro h; rw [h] at hx; cases hx
      rw [if_neg hne] at hj
      omega

theorem units_nodup (ho : doc.Ok) (hd : doc.Distinct ns) : (doc.units.map DecUnit.id).Nodup := by
  have hP := turn_ids_perm doc.turns 0
  have hT : (doc.turns.map DecTurn.id).Nodup := by
    have h1 := hd.turns
    rw [List.nodup_iff_pairwise_ne, List.pairwise_map] at h1 ⊢
    refine h1.imp_of_mem ?_
    intro a b ha hb hab e
    obtain ⟨x, hx⟩ := Option.ne_none_iff_exists'.1 (ho.turns a ha).1
    obtain ⟨y, hy⟩ := Option.ne_none_iff_exists'.1 (ho.turns b hb).1
    unfold DecTurn.id at e
    have e := string_append_inj e
    rw [hx, hy] at e
    exact hab (by rw [hx, hy]; exact congrArg some e)
  have hU : ((doc.turns.flatMap (fun t => t.parts.filterMap DecPart.uttNr)).map (fun nr => "utterance_" ++ nr.getD "")).Nodup := by
    refine List.Nodup.map_on ?_ hd.utterances
    have hsome : ∀ x ∈ doc.turns.flatMap (fun t => t.parts.filterMap DecPart.uttNr), x ≠ none := by
      intro x hx
      obtain ⟨t, ht, hx⟩ := List.mem_flatMap.1 hx
      obtain ⟨p, hp, hx⟩ := List.mem_filterMap.1 hx
      have := (ho.turns t ht).2.2 p hp
      cases p with
      | act => cases hx
      | utterance nr text cs => obtain rfl := Option.some.inj hx; exact this.1
    intro a ha b hb e
    obtain ⟨x, rfl⟩ := Option.ne_none_iff_exists'.1 (hsome a ha)
    obtain ⟨y, rfl⟩ := Option.ne_none_iff_exists'.1 (hsome b hb)
    exact congrArg some (string_append_inj e)
  have hmid : ((turnUnits 0 doc.turns).map DecUnit.id).Nodup := by
    rw [hP.nodup_iff, List.nodup_append', List.nodup_append']
    refine ⟨hT, ⟨actIds_nodup _ _, hU, ?_⟩, ?_⟩
    · intro s hs hs'
      obtain ⟨j, _, rfl⟩ := actIds_gt _ _ _ hs
      obtain ⟨nr, _, e⟩ := List.mem_map.1 hs'
      rw [numbered_act] at e
      exact prefix_clash e (n := 2) (by decide) (by decide) (by decide)
    · intro s hs hs'
      obtain ⟨t, _, rfl⟩ := List.mem_map.1 hs
      rcases List.mem_append.1 hs' with hs' | hs'
      · obtain ⟨j, _, e⟩ := actIds_gt _ _ _ hs'
        rw [numbered_act] at e
        exact prefix_clash e (n := 2) (by decide) (by decide) (by decide)
      · obtain ⟨nr, _, e⟩ := List.mem_map.1 hs'
        exact prefix_clash e (n := 2) (by decide) (by decide) (by decide)
  have hmidne : ∀ s, s = "intro" ∨ s = "conclu" → s ∉ (turnUnits 0 doc.turns).map DecUnit.id := by
    intro s hs hm
    have hm := hP.mem_iff.1 hm
    have key : ∀ {a x : String}, (a = "turn_" ∨ a = "act_" ∨ a = "utterance_") → s ≠ a ++ x := by
      intro a x ha e
      rcases ha with rfl | rfl | rfl <;> rcases hs with rfl | rfl
      · exact prefix_clash (a := "intro") (x := "") (by simpa using e) (n := 2) (by decide) (by decide) (by decide)
      · exact prefix_clash (a := "conclu") (x := "") (by simpa using e) (n := 2) (by decide) (by decide) (by decide)
      · exact prefix_clash (a := "intro") (x := "") (by simpa using e) (n := 2) (by decide) (by decide) (by decide)
      · exact prefix_clash (a := "conclu") (x := "") (by simpa using e) (n := 2) (by decide) (by decide) (by decide)
      · exact prefix_clash (a := "intro") (x := "") (by simpa using e) (n := 2) (by decide) (by decide) (by decide)
      · exact prefix_clash (a := "conclu") (x := "") (by simpa using e) (n := 2) (by decide) (by decide) (by decide)
    rcases List.mem_append.1 hm with hm | hm
    · obtain ⟨t, _, e⟩ := List.mem_map.1 hm
      exact key (.inl rfl) e.symm
    · rcases List.mem_append.1 hm with hm | hm
      · obtain ⟨j, _, e⟩ := actIds_gt _ _ _ hm
        rw [numbered_act] at e
        exact key (.inr (.inl rfl)) e
      · obtain ⟨nr, _, e⟩ := List.mem_map.1 hm
        exact key (.inr (.inr rfl)) e.symm
  unfold DecDoc.units
  rw [List.map_cons, List.nodup_cons, List.map_append, List.nodup_append', List.map_map]
  refine ⟨?_, hmid, ?_, ?_⟩
  · intro h
    rcases List.mem_append.1 h with h | h
    · exact hmidne _ (.inl rfl) h
    · obtain ⟨t, _, e⟩ := List.mem_map.1 h
      have e : "conclu" = "intro" := e
      exact absurd e (by decide)
  · cases doc.conclu <;> simp
  · intro s hs hs'
    obtain ⟨t, _, rfl⟩ := List.mem_map.1 hs'
    exact hmidne _ (.inr rfl) hs

theorem prefix_of_colon {a : List Char} {n m : List Char} (ha : ':' ∉ a) (h : a <+: n ++ ':' :: m) : a <+: n := by
  obtain ⟨r, h⟩ := h
  rcases List.append_eq_append_iff.1 h with ⟨x, h1, h2⟩ | ⟨x, h1, h2⟩
  · exact ⟨x, h1.symm⟩
  · cases x with
    | nil => exact ⟨[], by simpa using h1⟩
    | cons c x =>
      rw [List.cons_append] at h2
      obtain ⟨rfl, _⟩ := List.cons.inj h2
      exact absurd (by rw [h1]; simp) ha

theorem root_not_unit (hd : doc.Distinct ns) : ∀ u ∈ doc.units, NodeId.str u.id ≠ .str (ns ++ ":root_node") := by
  intro u hu e
  injection e with e
  have hl : (ns ++ ":root_node").toList = ns.toList ++ ':' :: "root_node".toList := by
    rw [String.toList_append]; rfl
  have hpre : ∀ {a : String} {x : String}, ':' ∉ a.toList → a ++ x = ns ++ ":root_node" → a.toList <+: ns.toList := by
    intro a x ha h
    refine prefix_of_colon ha (m := "root_node".toList) ⟨x.toList, ?_⟩
    rw [← hl, ← h, String.toList_append]
  have hno : ∀ {a : String}, ':' ∉ a.toList → a ≠ ns ++ ":root_node" := by
    intro a ha h
    rw [h, hl] at ha
    exact ha (by simp)
  rcases (doc_names doc u hu).1 with h | h | ⟨x, h | h | h⟩
  · exact hno (by rw [h]; decide) e
  · exact hno (by rw [h]; decide) e
  · rw [h] at e
    exact hd.root.1 (hpre (by decide) e)
  · -- acts have numbers
    have hact : ∃ j, u.id = numbered "act" j := by
      unfold DecDoc.units at hu
      have := hu
      rcases List.mem_cons.1 hu with rfl | hu
      · exact absurd h (by intro e; exact prefix_clash (a := "intro") (x := "") (b := "act_") (y := x) (by simpa using e) (n := 2) (by decide) (by decide) (by decide))
      · rcases List.mem_append.1 hu with hu | hu
        · have hm := (turn_ids_perm doc.turns 0).mem_iff.1 (List.mem_map_of_mem (f := DecUnit.id) hu)
          rcases List.mem_append.1 hm with hm | hm
          · obtain ⟨t, _, e⟩ := List.mem_map.1 hm
            rw [h] at e
            exact absurd e (fun e => prefix_clash (a := "turn_") (b := "act_") e (n := 2) (by decide) (by decide) (by decide))
          · rcases List.mem_append.1 hm with hm | hm
            · obtain ⟨j, _, e⟩ := actIds_gt _ _ _ hm
              exact ⟨j, e⟩
            · obtain ⟨nr, _, e⟩ := List.mem_map.1 hm
              rw [h] at e
              exact absurd e (fun e => prefix_clash (a := "utterance_") (b := "act_") e (n := 2) (by decide) (by decide) (by decide))
        · obtain ⟨t, _, rfl⟩ := List.mem_map.1 hu
          exact absurd h (by intro e; exact prefix_clash (a := "conclu") (x := "") (b := "act_") (y := x) (by simpa using e) (n := 2) (by decide) (by decide) (by decide))
    obtain ⟨j, hj⟩ := hact
    refine hno ?_ e
    rw [hj, numbered_act, String.toList_append]
    intro hm
    rcases List.mem_append.1 hm with hm | hm
    · revert hm; decide
    · rw [String.toList_ofList] at hm
      exact colon_decimal j hm
  · rw [h] at e
    exact hd.root.2 (hpre (by decide) e)

/-- the node a unit is part of -/
def unitParent (ns : String) (u : DecUnit) : NodeId := decSource ns u.parent

theorem decEdges_targets (ns : String) (doc : DecDoc) : (decEdges ns doc).map EdgeSpec.target = (doc.units.map DecUnit.id).map NodeId.str ++ (doc.words.map Prod.snd).map decToken := by
  unfold decEdges
  rw [List.map_append, List.map_map, List.map_map, List.map_map, List.map_map]
  rfl

theorem decTargets_nodup (ho : doc.Ok) (hd : doc.Distinct ns) : ((decEdges ns doc).map EdgeSpec.target).Nodup := by
  rw [decEdges_targets, List.nodup_append']
  refine ⟨(units_nodup ho hd).map (fun a b h => by injection h), ?_, ?_⟩
  · have nd : (doc.words.map Prod.snd).Nodup := by
      unfold DecDoc.words
      rw [List.zipIdx_map_snd]
      exact List.nodup_range'
    exact nd.map (fun a b h => decToken_inj h)
  · intro m hm hm'
    obtain ⟨s, hs, rfl⟩ := List.mem_map.1 hm
    obtain ⟨u, hu, rfl⟩ := List.mem_map.1 hs
    obtain ⟨i, _, e⟩ := List.mem_map.1 hm'
    exact token_not_unit (doc_names doc u hu).1 i e.symm

/-- **C64 (tree)**.  If turns and utterances have different numbers, the graph (without precedence edges) is a tree: nothing leads to the root; each word is the target of exactly one edge, from the unit it belongs to; each unit is the target of exactly one edge, from its turn or from the root. -/
theorem c64_tree (ho : doc.Ok) (hd : doc.Distinct ns) (name : String) :
    ∃ st, decRead name ns false doc = .ok st ∧ (∀ u, st.g.edgeCount u st.g.root = 0) ∧
      (∀ w ∈ doc.words, st.g.edgeCount (.str w.1.1.id) (decToken w.2) = 1 ∧ ∀ u, u ≠ .str w.1.1.id → st.g.edgeCount u (decToken w.2) = 0) ∧
      ∀ x ∈ doc.units, st.g.edgeCount (unitParent ns x) (.str x.id) = 1 ∧ ∀ u, u ≠ unitParent ns x → st.g.edgeCount u (.str x.id) = 0 := by
  obtain ⟨st, e, hc, _⟩ := c64_content (precedence := false) ho name ns (by simp)
  have he := hc.edges
  simp only [Bool.false_eq_true, if_false, List.append_nil] at he
  have hn := decTargets_nodup ho hd
  refine ⟨st, e, ?_, ?_, ?_⟩
  · intro u
    refine EdgesAre.untouched he ?_ u
    intro x hx h
    have hm := List.mem_map_of_mem (f := EdgeSpec.target) hx
    rw [h, decEdges_targets, hc.root] at hm
    rcases List.mem_append.1 hm with hm | hm
    · obtain ⟨s, hs, h⟩ := List.mem_map.1 hm
      obtain ⟨y, hy, rfl⟩ := List.mem_map.1 hs
      exact root_not_unit hd y hy h
    · obtain ⟨i, _, h⟩ := List.mem_map.1 hm
      exact root_not_token _ _ h
  · intro w hw
    exact EdgesAre.single he hn (e := ⟨.str w.1.1.id, decToken w.2, [ns, qual ns "unit"], [("edge_type", strV "spans")]⟩) (List.mem_append_right _ (List.mem_map.2 ⟨w, hw, rfl⟩))
  · intro x hx
    exact EdgesAre.single he hn (e := ⟨unitParent ns x, .str x.id, [ns, qual ns "discourse"], [("edge_type", strV "dominates")]⟩) (List.mem_append_left _ (List.mem_map.2 ⟨x, hx, rfl⟩))

/-! ### the tokens of a unit -/

theorem doc_parents (doc : DecDoc) : ∀ u ∈ doc.units, ∀ p, u.parent = some p → ∃ u' ∈ doc.units, u'.id = p ∧ u'.parent = none := by
  have h1 : ∀ ts k, ∀ u ∈ turnUnits k ts, ∀ p, u.parent = some p → ∃ u' ∈ turnUnits k ts, u'.id = p ∧ u'.parent = none := by
    intro ts
    induction ts with
    | nil => intro k u hu; cases hu
    | cons t ts ih =>
      intro k u hu p hp
      rw [turnUnits] at hu ⊢
      rcases List.mem_append.1 hu with hu | hu
      · refine ⟨⟨t.id, none, []⟩, List.mem_append_left _ (List.mem_cons_self ..), ((turn_names u hu).2 p hp).symm, rfl⟩
      · obtain ⟨u', h, e⟩ := ih _ u hu p hp
        exact ⟨u', List.mem_append_right _ h, e⟩
  intro u hu p hp
  unfold DecDoc.units at hu ⊢
  rcases List.mem_cons.1 hu with rfl | hu
  · cases hp
  · rcases List.mem_append.1 hu with hu | hu
    · obtain ⟨u', h, e⟩ := h1 _ _ u hu p hp
      exact ⟨u', List.mem_cons_of_mem _ (List.mem_append_left _ h), e⟩
    · obtain ⟨t, _, rfl⟩ := List.mem_map.1 hu
      cases hp

theorem mem_decEdges {ns : String} {doc : DecDoc} {u v : NodeId} : Leads (decEdges ns doc) u v ↔ (∃ x ∈ doc.units, u = unitParent ns x ∧ v = .str x.id) ∨ ∃ w ∈ doc.words, u = .str w.1.1.id ∧ v = decToken w.2 := by
  unfold Leads decEdges
  constructor
  · rintro ⟨e, he, rfl, rfl⟩
    rcases List.mem_append.1 he with he | he
    · obtain ⟨x, hx, rfl⟩ := List.mem_map.1 he
      exact .inl ⟨x, hx, rfl, rfl⟩
    · obtain ⟨x, hx, rfl⟩ := List.mem_map.1 he
      exact .inr ⟨x, hx, rfl, rfl⟩
  · rintro (⟨x, hx, rfl, rfl⟩ | ⟨w, hw, rfl, rfl⟩)
    · exact ⟨_, List.mem_append_left _ (List.mem_map.2 ⟨x, hx, rfl⟩), rfl, rfl⟩
    · exact ⟨_, List.mem_append_right _ (List.mem_map.2 ⟨w, hw, rfl⟩), rfl, rfl⟩

section
variable (ho : doc.Ok) (hd : doc.Distinct ns)
include ho hd

theorem unit_eq {x y : DecUnit} (hx : x ∈ doc.units) (hy : y ∈ doc.units) (h : x.id = y.id) : x = y := List.inj_on_of_nodup_map (units_nodup ho hd) hx hy h

theorem leads_unit {x : DecUnit} (hx : x ∈ doc.units) {u : NodeId} : Leads (decEdges ns doc) u (.str x.id) ↔ u = unitParent ns x := by
  rw [mem_decEdges]
  constructor
  · rintro (⟨y, hy, rfl, h⟩ | ⟨w, hw, rfl, h⟩)
    · injection h with h
      rw [unit_eq ho hd hx hy h]
    · exact absurd h (token_not_unit (doc_names doc x hx).1 _)
  · rintro rfl
    exact .inl ⟨x, hx, rfl, rfl⟩

theorem leads_root {u : NodeId} : ¬ Leads (decEdges ns doc) u (.str (ns ++ ":root_node")) := by
  rw [mem_decEdges]
  rintro (⟨y, hy, rfl, h⟩ | ⟨w, hw, rfl, h⟩)
  · exact root_not_unit hd y hy h.symm
  · exact root_not_token _ _ h.symm

theorem leads_word {w} (hw : w ∈ doc.words) {u : NodeId} : Leads (decEdges ns doc) u (decToken w.2) ↔ u = .str w.1.1.id := by
  rw [mem_decEdges]
  constructor
  · rintro (⟨y, hy, rfl, h⟩ | ⟨w', hw', rfl, h⟩)
    · exact absurd h.symm (token_not_unit (doc_names doc y hy).1 _)
    · rw [unitWords_inj hw hw' (decToken_inj h)]
  · rintro rfl
    exact .inr ⟨w, hw, rfl, rfl⟩

theorem reach_unit {x y : DecUnit} (hx : x ∈ doc.units) (hy : y ∈ doc.units) : Relation.ReflTransGen (Leads (decEdges ns doc)) (.str x.id) (.str y.id) ↔ y = x ∨ y.parent = some x.id := by
  constructor
  · intro h
    rcases Relation.ReflTransGen.cases_tail h with h | ⟨m, h1, h2⟩
    · injection h with h
      exact .inl (unit_eq ho hd hy hx h)
    · rw [leads_unit ho hd hy] at h2
      subst h2
      unfold unitParent at h1
      cases hp : y.parent with
      | none =>
        rw [hp] at h1
        rcases Relation.ReflTransGen.cases_tail h1 with h | ⟨m, _, h2⟩
        · exact absurd h.symm (root_not_unit hd x hx)
        · exact absurd h2 (leads_root ho hd)
      | some p =>
        rw [hp] at h1
        obtain ⟨z, hz, rfl, hn⟩ := doc_parents doc y hy p hp
        rcases Relation.ReflTransGen.cases_tail h1 with h | ⟨m, h1, h2⟩
        · injection h with h
          exact .inr (by rw [h])
        · rw [show decSource ns (some z.id) = .str z.id from rfl, leads_unit ho hd hz] at h2
          subst h2
          unfold unitParent at h1
          rw [hn] at h1
          rcases Relation.ReflTransGen.cases_tail h1 with h | ⟨m, _, h2⟩
          · exact absurd h.symm (root_not_unit hd x hx)
          · exact absurd h2 (leads_root ho hd)
  · rintro (rfl | h)
    · exact .refl
    · refine .single ((leads_unit ho hd hy).2 ?_)
      unfold unitParent
      rw [h]; rfl

theorem reach_word {x : DecUnit} (hx : x ∈ doc.units) {w} (hw : w ∈ doc.words) : Relation.ReflTransGen (Leads (decEdges ns doc)) (.str x.id) (decToken w.2) ↔ w.1.1 = x ∨ w.1.1.parent = some x.id := by
  have hu := (unitWords_unit hw).1
  rw [← reach_unit ho hd hx hu]
  constructor
  · intro h
    rcases Relation.ReflTransGen.cases_tail h with h | ⟨m, h1, h2⟩
    · exact absurd h.symm (token_not_unit (doc_names doc x hx).1 _)
    · rw [leads_word ho hd hw] at h2
      rwa [h2] at h1
  · intro h
    exact h.tail ((leads_word ho hd hw).2 rfl)

theorem reach_all {w} (hw : w ∈ doc.words) : Relation.ReflTransGen (Leads (decEdges ns doc)) (.str (ns ++ ":root_node")) (decToken w.2) := by
  have hu := (unitWords_unit hw).1
  have hroot : ∀ z ∈ doc.units, z.parent = none → Relation.ReflTransGen (Leads (decEdges ns doc)) (.str (ns ++ ":root_node")) (.str z.id) := by
    intro z hz hn
    refine .single ((leads_unit ho hd hz).2 ?_)
    unfold unitParent
    rw [hn]; rfl
  refine Relation.ReflTransGen.tail ?_ ((leads_word ho hd hw).2 rfl)
  cases hp : w.1.1.parent with
  | none => exact hroot _ hu hp
  | some p =>
    obtain ⟨z, hz, rfl, hn⟩ := doc_parents doc _ hu p hp
    refine (hroot z hz hn).tail ((leads_unit ho hd hu).2 ?_)
    unfold unitParent
    rw [hp]; rfl

end

/-- distance from the words -/
noncomputable def decRank (ns : String) (doc : DecDoc) (m : NodeId) : Nat := by
  classical
  exact if m = .str (ns ++ ":root_node") then 3 else if ∃ u ∈ doc.units, u.parent = none ∧ m = .str u.id then 2 else if ∃ u ∈ doc.units, m = .str u.id then 1 else 0

theorem decRank_lt (ho : doc.Ok) (hd : doc.Distinct ns) : ∀ e ∈ decEdges ns doc, decRank ns doc e.target < decRank ns doc e.source := by
  classical
  intro e he
  have hl : Leads (decEdges ns doc) e.source e.target := ⟨e, he, rfl, rfl⟩
  have hunit : ∀ x ∈ doc.units, decRank ns doc (.str x.id) = if x.parent = none then 2 else 1 := by
    intro x hx
    unfold decRank
    rw [if_neg (root_not_unit hd x hx)]
    by_cases hp : x.parent = none
    · rw [if_pos ⟨x, hx, hp, rfl⟩, if_pos hp]
    · rw [if_neg, if_pos ⟨x, hx, rfl⟩, if_neg hp]
      rintro ⟨y, hy, hn, h⟩
      injection h with h
      rw [unit_eq ho hd hx hy h] at hp
      exact hp hn
  have hroot : decRank ns doc (.str (ns ++ ":root_node")) = 3 := by unfold decRank; rw [if_pos rfl]
  rw [mem_decEdges] at hl
  generalize e.source = u at hl ⊢
  generalize e.target = v at hl ⊢
  rcases hl with ⟨x, hx, rfl, rfl⟩ | ⟨w, hw, rfl, rfl⟩
  · rw [hunit x hx]
    unfold unitParent
    cases hp : x.parent with
    | none => rw [show decSource ns none = .str (ns ++ ":root_node") from rfl, hroot]; simp
    | some p =>
      obtain ⟨z, hz, rfl, hn⟩ := doc_parents doc x hx p hp
      rw [show decSource ns (some z.id) = .str z.id from rfl, hunit z hz, hn]; simp
  · have h1 : decRank ns doc (decToken w.2) = 0 := by
      unfold decRank
      rw [if_neg (root_not_token _ _), if_neg, if_neg]
      · rintro ⟨y, hy, h⟩; exact token_not_unit (doc_names doc y hy).1 _ h.symm
      · rintro ⟨y, hy, _, h⟩; exact token_not_unit (doc_names doc y hy).1 _ h.symm
    rw [h1, hunit _ (unitWords_unit hw).1]
    split <;> omega

theorem decToken_le (a b : Nat) : naturalLe (decToken a) (decToken b) = true ↔ a ≤ b :=
  (c20_numbered_ids_sort_numerically "token_" (by intro c hc; have : c = '_' := by simpa using hc.symm
                                                  subst this; decide) a b).1

/-- a sorted list of tokens is determined by its members -/
theorem dec_sorted {span : List NodeId} (hn : span.Nodup) (hs : span.Pairwise (fun a b => naturalLe a b = true)) {doc : DecDoc} {l : List ((DecUnit × DecWord) × Nat)} (hl : l.Sublist doc.words) (hm : ∀ m, m ∈ span ↔ ∃ w ∈ l, m = decToken w.2) :
    span = l.map (fun w => decToken w.2) := by
  have nd : (doc.words.map Prod.snd).Pairwise (· < ·) := by
    unfold DecDoc.words
    rw [List.zipIdx_map_snd]
    exact List.pairwise_lt_range'
  have hlt : l.Pairwise (fun a b => a.2 < b.2) := by
    rw [List.pairwise_map] at nd
    exact nd.sublist hl
  have hp : span.Perm (l.map (fun w => decToken w.2)) := by
    refine (List.perm_ext_iff_of_nodup hn ?_).2 ?_
    · rw [List.nodup_iff_pairwise_ne, List.pairwise_map]
      exact hlt.imp (fun h e => by have := decToken_inj e; omega)
    · intro m
      rw [hm, List.mem_map]
      simp only [eq_comm]
  refine hp.eq_of_pairwise ?_ hs ?_
  · intro a b ha hb h1 h2
    obtain ⟨i, _, rfl⟩ := (hm a).1 ha
    obtain ⟨j, _, rfl⟩ := List.mem_map.1 hb
    have e1 := (decToken_le _ _).1 h1
    have e2 := (decToken_le _ _).1 h2
    congr 1
    omega
  · rw [List.pairwise_map]
    exact hlt.imp (fun h => (decToken_le _ _).2 (by omega))

/-- **C64 (spans)**.  If turns and utterances have different numbers, `get_span` of a turn returns the tokens of its act and its utterances, `get_span` of any other unit returns its own tokens, and `get_span` of the root returns all tokens, in document order. -/
theorem c64_span (ho : doc.Ok) (hd : doc.Distinct ns) (name : String) :
    ∃ st, decRead name ns false doc = .ok st ∧ ∀ fuel, st.g.nodes.length ≤ fuel → st.g.getSpan fuel st.g.root = .ok st.g.tokens ∧
      ∀ x ∈ doc.units, st.g.getSpan fuel (.str x.id) = .ok ((doc.words.filter (fun w => decide (w.1.1 = x ∨ w.1.1.parent = some x.id))).map (fun w => decToken w.2)) := by
  obtain ⟨st, e, hc, _, _, _, hi⟩ := decContent (precedence := false) ho name ns (by simp)
  have he := hc.edges
  simp only [Bool.false_eq_true, if_false, List.append_nil] at he
  have hn := decTargets_nodup ho hd
  have hst : Structural (decEdges ns doc) := by
    intro e he
    unfold decEdges at he
    rcases List.mem_append.1 he with he | he
    · obtain ⟨x, hx, rfl⟩ := List.mem_map.1 he
      exact ⟨_, rfl, by decide⟩
    · obtain ⟨x, hx, rfl⟩ := List.mem_map.1 he
      exact ⟨_, rfl, by decide⟩
  have htok : ∀ m, st.g.IsToken m ↔ ∃ w ∈ doc.words, m = decToken w.2 := by
    intro m
    unfold IsToken
    have hl : qual ns "token" ≠ "layers" := qual_ne_plain (by decide)
    rw [hc.space]
    constructor
    · rintro ⟨x, hx⟩
      by_contra hne
      have := hc.rest m (qual ns "token") hl (fun w hw h => hne ⟨w, hw, h⟩)
      rw [if_neg (fun h => qual_ne_plain (ns := ns) (a := "token") (b := "metadata") (by decide) h.2)] at this
      rw [show qual ns "token" = ns ++ (":" ++ "token") from rfl, hx] at this
      cases this
    · rintro ⟨w, hw, rfl⟩
      refine ⟨strVal w.1.2.word, ?_⟩
      rw [show ns ++ (":" ++ "token") = qual ns "token" from rfl, hc.words w hw _ hl]
      obtain ⟨h1, h2⟩ := unitWords_unit hw
      exact mem_find (decAttrs_nodup (DecDoc.fine _ h1 _ h2)) (by unfold decAttrs; simp)
  refine ⟨st, e, fun fuel hf => ⟨?_, ?_⟩⟩
  · obtain ⟨span, h1, h2, h3, h4⟩ := span_of_edges hi he hst hn (decRank_lt ho hd) (n := st.g.root) ((hc.nodes _).2 (.inl rfl)) hf
    rw [h1, hc.tokens]
    refine congrArg _ (dec_sorted h2 h3 (List.Sublist.refl _) ?_)
    intro m
    rw [h4, htok]
    constructor
    · rintro ⟨h, _⟩; exact h
    · rintro ⟨w, hw, rfl⟩
      exact ⟨⟨w, hw, rfl⟩, by rw [hc.root]; exact reach_all ho hd hw⟩
  · intro x hx
    obtain ⟨span, h1, h2, h3, h4⟩ := span_of_edges hi he hst hn (decRank_lt ho hd) (n := .str x.id) ((hc.nodes _).2 (.inr (.inr (.inl ⟨x, hx, rfl⟩)))) hf
    rw [h1]
    refine congrArg _ (dec_sorted h2 h3 (List.filter_sublist ..) ?_)
    intro m
    rw [h4, htok]
    constructor
    · rintro ⟨⟨w, hw, rfl⟩, h⟩
      exact ⟨w, List.mem_filter.2 ⟨hw, by simpa using (reach_word ho hd hx hw).1 h⟩, rfl⟩
    · rintro ⟨w, hw, rfl⟩
      obtain ⟨hw, h⟩ := List.mem_filter.1 hw
      exact ⟨⟨w, hw, rfl⟩, (reach_word ho hd hx hw).2 (by simpa using h)⟩

/-! ### annotations -/

/-- **C64 (annotations)**.  The i-th word of an utterance becomes a token below the utterance, with the i-th normal form, the i-th lemma and the i-th part of speech. -/
theorem c64_annotations (ho : doc.Ok) (name ns : String) (hp : precedence = true → 2 ≤ doc.words.length) : ∃ st, decRead name ns precedence doc = .ok st ∧
    ∀ t ∈ doc.turns, ∀ nr text a b c, DecPart.utterance (some nr) (some text) [some a, some b, some c] ∈ t.parts → ∀ (i : Nat) w, (splitWs text)[i]? = some w →
      ∃ n ∈ st.g.tokens, (∃ e, st.g.EdgeWith (.str ("utterance_" ++ nr)) n e ∧ find e "edge_type" = some (strV "spans")) ∧ st.g.nodeAttr n (qual ns "token") = some (strVal w) ∧
        (splitWs a)[i]?.map strVal = st.g.nodeAttr n (qual ns "norm") ∧ (splitWs b)[i]?.map strVal = st.g.nodeAttr n (qual ns "lemma") ∧ (splitWs c)[i]?.map strVal = st.g.nodeAttr n (qual ns "pos") := by
  obtain ⟨st, e, hc, _⟩ := c64_content ho name ns hp
  refine ⟨st, e, ?_⟩
  intro t ht nr text a b c hpart i w hi
  have hok := (ho.turns t ht).2.2 _ hpart
  obtain ⟨_, t', a', b', c', h1, h2, hla, hlb, hlc⟩ := hok
  simp only [Option.some.injEq, List.cons.injEq, and_true] at h1 h2
  obtain ⟨rfl, rfl, rfl⟩ := h2
  subst h1
  have hlt := (List.getElem?_eq_some_iff.1 hi).1
  obtain ⟨x, hxa⟩ : ∃ x, (splitWs a)[i]? = some x := ⟨_, List.getElem?_eq_getElem (by omega)⟩
  obtain ⟨y, hyb⟩ : ∃ x, (splitWs b)[i]? = some x := ⟨_, List.getElem?_eq_getElem (by omega)⟩
  obtain ⟨z, hzc⟩ : ∃ x, (splitWs c)[i]? = some x := ⟨_, List.getElem?_eq_getElem (by omega)⟩
  have hword : (⟨w, [("norm", x), ("lemma", y), ("pos", z)]⟩ : DecWord) ∈ uttWords (some text) [some a, some b, some c] := by
    rw [uttWords_some]
    refine List.mem_map.2 ⟨(w, x, y, z), ?_, rfl⟩
    refine List.mem_of_getElem? (i := i) ?_
    rw [List.getElem?_zip_eq_some, List.getElem?_zip_eq_some, List.getElem?_zip_eq_some]
    exact ⟨hi, hxa, hyb, hzc⟩
  have hunit : (⟨"utterance_" ++ nr, some t.id, uttWords (some text) [some a, some b, some c]⟩ : DecUnit) ∈ doc.units := by
    have hpu : (⟨"utterance_" ++ nr, some t.id, uttWords (some text) [some a, some b, some c]⟩ : DecUnit) ∈ partUnits t.id t.parts :=
      List.mem_filterMap.2 ⟨_, hpart, rfl⟩
    have : ∀ (ts : List DecTurn) k, t ∈ ts → (⟨"utterance_" ++ nr, some t.id, uttWords (some text) [some a, some b, some c]⟩ : DecUnit) ∈ turnUnits k ts := by
      intro ts
      induction ts with
      | nil => intro k h; cases h
      | cons s ts ih =>
        intro k h
        rw [turnUnits, List.mem_append]
        rcases List.mem_cons.1 h with rfl | h
        · rw [turn_units]
          exact .inl (List.mem_cons_of_mem _ (List.mem_append_right _ hpu))
        · exact .inr (ih _ h)
    unfold DecDoc.units
    exact List.mem_cons_of_mem _ (List.mem_append_left _ (this _ _ ht))
  obtain ⟨k, hw⟩ : ∃ k, ((⟨"utterance_" ++ nr, some t.id, uttWords (some text) [some a, some b, some c]⟩, ⟨w, [("norm", x), ("lemma", y), ("pos", z)]⟩), k) ∈ doc.words := by
    have hm : (((⟨"utterance_" ++ nr, some t.id, uttWords (some text) [some a, some b, some c]⟩, ⟨w, [("norm", x), ("lemma", y), ("pos", z)]⟩) : DecUnit × DecWord)) ∈ doc.words.map Prod.fst := by
      unfold DecDoc.words
      rw [List.zipIdx_map_fst]
      exact List.mem_flatMap.2 ⟨_, hunit, List.mem_map.2 ⟨_, hword, rfl⟩⟩
    obtain ⟨⟨p, k⟩, hk, rfl⟩ := List.mem_map.1 hm
    exact ⟨k, hk⟩
  have hq : ∀ a, qual ns a ≠ "layers" → (a = "token" ∨ a = "norm" ∨ a = "lemma" ∨ a = "pos") → st.g.nodeAttr (decToken k) (qual ns a) = find (decAttrs ns ⟨w, [("norm", x), ("lemma", y), ("pos", z)]⟩) (qual ns a) := fun a h _ => hc.words _ hw _ h
  have hfine : (⟨w, [("norm", x), ("lemma", y), ("pos", z)]⟩ : DecWord).Fine := by constructor <;> simp
  have hnd := decAttrs_nodup (ns := ns) hfine
  refine ⟨decToken k, ?_, ?_, ?_, ?_, ?_, ?_⟩
  · rw [hc.tokens]
    exact List.mem_map.2 ⟨_, hw, rfl⟩
  · obtain ⟨at', h1, h2, _⟩ := hc.edges.complete ⟨.str ("utterance_" ++ nr), decToken k, [ns, qual ns "unit"], [("edge_type", strV "spans")]⟩
      (List.mem_append_left _ (List.mem_append_right _ (List.mem_map.2 ⟨_, hw, rfl⟩)))
    exact ⟨at', h1, by rw [h2 _ (by decide)]; rfl⟩
  · rw [hq "token" (qual_ne_plain (by decide)) (by simp)]
    exact mem_find hnd (by unfold decAttrs; simp)
  · rw [hq "norm" (qual_ne_plain (by decide)) (by simp), hxa]
    exact (mem_find hnd (by unfold decAttrs; simp)).symm
  · rw [hq "lemma" (qual_ne_plain (by decide)) (by simp), hyb]
    exact (mem_find hnd (by unfold decAttrs; simp)).symm
  · rw [hq "pos" (qual_ne_plain (by decide)) (by simp), hzc]
    exact (mem_find hnd (by unfold decAttrs; simp)).symm

/-- **C64 (negative: two roots)**.  Unless the namespace is `discoursegraph`, the graph has a node that is neither the root nor part of the document: the root node of the base class, without edges. -/
theorem c64_fails_root (ho : doc.Ok) (name : String) (hns : ns ≠ "discoursegraph") : ∃ st, decRead name ns false doc = .ok st ∧ st.g.HasNode (.str "discoursegraph:root_node") ∧ st.g.root ≠ .str "discoursegraph:root_node" ∧
    ∀ u, st.g.edgeCount u (.str "discoursegraph:root_node") = 0 ∧ st.g.edgeCount (.str "discoursegraph:root_node") u = 0 := by
  obtain ⟨st, e, hc, _⟩ := c64_content (precedence := false) ho name ns (by simp)
  have he := hc.edges
  simp only [Bool.false_eq_true, if_false, List.append_nil] at he
  have hrt : NodeId.str (ns ++ ":root_node") ≠ .str "discoursegraph:root_node" := by
    intro h
    injection h with h
    have h := congrArg String.toList h
    rw [String.toList_append, show "discoursegraph:root_node".toList = "discoursegraph".toList ++ ":root_node".toList by decide] at h
    exact hns (String.toList_inj.1 (List.append_cancel_right h))
  have hno : ∀ x ∈ doc.units, NodeId.str x.id ≠ .str "discoursegraph:root_node" := fun x hx => base_not_unit (doc_names doc x hx).1
  have hlead : ∀ u, ¬ Leads (decEdges ns doc) u (.str "discoursegraph:root_node") ∧ ¬ Leads (decEdges ns doc) (.str "discoursegraph:root_node") u := by
    intro u
    rw [mem_decEdges, mem_decEdges]
    refine ⟨?_, ?_⟩
    · rintro (⟨x, hx, _, h⟩ | ⟨w, hw, _, h⟩)
      · exact hno x hx h.symm
      · exact base_not_token _ h.symm
    · rintro (⟨x, hx, h, _⟩ | ⟨w, hw, h, _⟩)
      · unfold unitParent at h
        cases hp : x.parent with
        | none => rw [hp] at h; exact hrt h.symm
        | some p =>
          rw [hp] at h
          obtain ⟨z, hz, rfl, _⟩ := doc_parents doc x hx p hp
          exact hno z hz h.symm
      · exact hno _ (unitWords_unit hw).1 h.symm
  refine ⟨st, e, (hc.nodes _).2 (.inr (.inl rfl)), by rw [hc.root]; exact hrt, fun u => ⟨?_, ?_⟩⟩
  · rw [he.count, List.countP_eq_zero]
    intro e hm h
    have h := of_decide_eq_true h
    exact (hlead u).1 ⟨e, hm, h.1, h.2⟩
  · rw [he.count, List.countP_eq_zero]
    intro e hm h
    have h := of_decide_eq_true h
    exact (hlead u).2 ⟨e, hm, h.1, h.2⟩

/-! ### examples -/

/-- a hearing with two turns -/
def c64Doc : DecDoc := ⟨some (some "the  court".toList), [⟨some "1", [.act (some "swears".toList), .utterance (some "1") (some " I saw ".toList) [some "i saw".toList, some "I see".toList, some "PRO VER extra".toList]]⟩, ⟨some "2", [.utterance (some "2") (some "ok".toList) [some "ok".toList, some "ok".toList, some "ADV".toList]]⟩], some (some "end".toList)⟩

/-- can the reader make sense of the part? -/
def partOk : DecPart → Bool
  | .act _ => true
  | .utterance nr (some t) [some a, some b, some c] => nr.isSome && decide ((splitWs t).length ≤ (splitWs a).length) && decide ((splitWs t).length ≤ (splitWs b).length) && decide ((splitWs t).length ≤ (splitWs c).length)
  | _ => false

theorem partOk_ok {p : DecPart} (h : partOk p = true) : p.Ok := by
  unfold partOk at h
  split at h
  · trivial
  · simp only [Bool.and_eq_true, decide_eq_true_eq, Option.isSome_iff_ne_none] at h
    exact ⟨h.1.1.1, _, _, _, _, rfl, rfl, h.1.1.2, h.1.2, h.2⟩
  · cases h

theorem c64Doc_ok : c64Doc.Ok := by
  refine ⟨⟨_, rfl⟩, ?_, ?_⟩
  · intro t ht
    obtain rfl := Option.some.inj ht
    simp
  · have h : ∀ t ∈ c64Doc.turns, t.nr ≠ none ∧ t.acts.head? ≠ some none ∧ ∀ p ∈ t.parts, partOk p = true := by decide +kernel
    intro t ht
    obtain ⟨h1, h2, h3⟩ := h t ht
    exact ⟨h1, fun x hx hn => h2 (hn ▸ hx), fun p hp => partOk_ok (h3 p hp)⟩

theorem c64Doc_distinct : c64Doc.Distinct "decour" := ⟨by decide +kernel, by decide +kernel, by decide +kernel⟩

example : ∀ t ∈ c64Doc.turns, t.ActFirst := by unfold DecTurn.ActFirst; decide +kernel

example : c64Doc.words.length = 7 ∧ docText c64Doc = ["the", "court", "swears", "I", "saw", "ok", "end"].map String.toList := by decide +kernel

example : ((decRead "x" "decour" true c64Doc).toOption.map (fun st => st.g.tokens)) = some ((List.range' 1 7).map decToken) := by decide +kernel

/-- an introduction without text is not read -/
example : ¬ DecDoc.Ok ⟨some none, [], none⟩ := fun h => by obtain ⟨t, h⟩ := h.intro; cases h

/-- **C64 (negative: text)**.  A document whose text is not the text of the tokens: the second act of a turn is missing, and an act that follows an utterance is put before it. -/
theorem c64_fails_text : ∃ doc : DecDoc, doc.Ok ∧ docText doc = ["intro", "yes", "laughs", "leaves"].map String.toList ∧
    (decRead "x" "decour" false doc).toOption.map (fun st => st.g.tokens.map (fun t => st.g.nodeAttr t "decour:token")) = some (["intro", "laughs", "yes"].map (fun w => some (strVal w.toList))) := by
  refine ⟨⟨some (some "intro".toList), [⟨some "1", [.utterance (some "1") (some "yes".toList) [some "a".toList, some "b".toList, some "c".toList], .act (some "laughs".toList), .act (some "leaves".toList)]⟩], none⟩, ⟨⟨_, rfl⟩, (by intro t ht; cases ht), ?_⟩, by decide +kernel, by decide +kernel⟩
  intro t ht
  rw [List.mem_singleton] at ht
  subst ht
  refine ⟨by simp, ?_, fun p hp => partOk_ok ?_⟩
  · intro x hx hn
    subst hn
    revert hx; decide
  · revert p; decide +kernel

/-- the surplus annotation of the example is dropped -/
example : ((decRead "x" "decour" false c64Doc).toOption.map (fun st => st.g.nodes.any (fun n => n.2.any (fun kv => decide (kv.2 = strVal "extra".toList))))) = some false := by decide +kernel

end DG
end Dg
