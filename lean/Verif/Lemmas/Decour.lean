import Verif.Spec.Decour
import Verif.Lemmas.ExportWhole
import Verif.Lemmas.DisRead

/-! Reading a DeCour document. -/

namespace Dg
open Dict
namespace DG

/-- the calls for a word -/
def decWordCalls (ns u : String) (w : DecWord × Nat) : List Instr :=
  [.node (decToken w.2) [ns, qual ns "token"] (decAttrs ns w.1), .token (decToken w.2), .edge (.str u) (decToken w.2) [ns, qual ns "unit"] [("edge_type", strV "spans")]]

/-- the source of the edge to a unit -/
def decSource (ns : String) (p : Option String) : NodeId := match p with | none => .str (ns ++ ":root_node") | some t => .str t

/-- the calls for a unit without its words -/
def decHead (ns : String) (u : DecUnit) : List Instr :=
  [.node (.str u.id) [ns, qual ns "unit"] [], .edge (decSource ns u.parent) (.str u.id) [ns, qual ns "discourse"] [("edge_type", strV "dominates")]]

/-- the calls for a unit -/
def decUnitCalls (ns : String) (i : Nat) (u : DecUnit) : List Instr := decHead ns u ++ (u.words.zipIdx i).flatMap (decWordCalls ns u.id)

/-- the calls for some units -/
def decCalls (ns : String) : Nat → List DecUnit → List Instr
  | _, [] => []
  | i, u :: us => decUnitCalls ns i u ++ decCalls ns (i + u.words.length) us

theorem decCalls_append (ns : String) (us us' : List DecUnit) : ∀ i, decCalls ns i (us ++ us') = decCalls ns i us ++ decCalls ns (i + (us.map (fun u => u.words.length)).sum) us' := by
  induction us with
  | nil => intro i; rfl
  | cons u us ih =>
    intro i
    rw [List.cons_append, decCalls, decCalls, ih, List.append_assoc, List.map_cons, List.sum_cons, Nat.add_assoc]

/-- the words are fine: annotations have different names, none of them is `token` -/
def _root_.Dg.DecWord.Fine (w : DecWord) : Prop := (w.feats.map Prod.fst).Nodup ∧ "token" ∉ w.feats.map Prod.fst

theorem decAttrs_nodup {ns : String} {w : DecWord} (h : w.Fine) : (keys (decAttrs ns w)).Nodup := by
  unfold decAttrs keys
  rw [List.map_append, List.map_map, List.nodup_append']
  have hc : w.feats.map (Prod.fst ∘ fun f => (qual ns f.1, strVal f.2)) = (w.feats.map Prod.fst).map (qual ns) := by rw [List.map_map]; rfl
  rw [hc]
  refine ⟨(List.Nodup.map (fun a b e => qual_inj e) h.1), by simp, ?_⟩
  intro x hx hx'
  obtain ⟨a, ha, rfl⟩ := List.mem_map.1 hx
  simp only [List.map_cons, List.map_nil, List.mem_singleton] at hx'
  exact h.2 (qual_inj hx' ▸ ha)

theorem decWordCalls_ok {ns u : String} {w : DecWord × Nat} (h : w.1.Fine) : ∀ i ∈ decWordCalls ns u w, i.Ok (fun _ => False) := by
  intro i hi
  simp only [decWordCalls, List.mem_cons, List.not_mem_nil, or_false] at hi
  rcases hi with rfl | rfl | rfl
  · exact ⟨by simp, decAttrs_nodup h⟩
  · trivial
  · exact ⟨by simp, by simp [keys]⟩

theorem decHead_ok (ns : String) (u : DecUnit) : ∀ i ∈ decHead ns u, i.Ok (fun _ => False) := by
  intro i hi
  simp only [decHead, List.mem_cons, List.not_mem_nil, or_false] at hi
  rcases hi with rfl | rfl
  · exact ⟨by simp, by simp [keys]⟩
  · exact ⟨by simp, by simp [keys]⟩

/-- the state before and after some calls -/
def DecRuns (ns : String) (g : DG) (s : List Instr) (g' : DG) : Prop := execs g s = .ok g' ∧ DisState ns g' ∧ g'.root = g.root

theorem DecRuns.trans {ns : String} {g g1 g2 : DG} {s s' : List Instr} (h : DecRuns ns g s g1) (h' : DecRuns ns g1 s' g2) : DecRuns ns g (s ++ s') g2 := by
  refine ⟨?_, h'.2.1, h'.2.2.trans h.2.2⟩
  rw [execs_append, h.1]
  exact h'.1

theorem DecRuns.of {ns : String} {g : DG} (h : DisState ns g) {s : List Instr} (hs : ∀ i ∈ s, i.Ok (fun _ => False)) : ∃ g', DecRuns ns g s g' := by
  obtain ⟨g', e, d, _⟩ := execs_state h hs
  exact ⟨g', e, d, (execs_ns_root s e).2⟩

theorem DecRuns.nil {ns : String} {g : DG} (h : DisState ns g) : DecRuns ns g [] g := ⟨rfl, h, rfl⟩

theorem decAddUnit_eq {ns : String} {g : DG} (h : DisState ns g) (u : DecUnit) {s : NodeId} (hs : s = decSource ns u.parent) : ∃ g', decAddUnit g s u.id = .ok g' ∧ DecRuns ns g (decHead ns u) g' := by
  obtain ⟨g', hr⟩ := DecRuns.of h (decHead_ok ns u)
  refine ⟨g', ?_, hr⟩
  rw [← hr.1]
  unfold decAddUnit decHead
  rw [h.ns, hs, execs_cons]
  show (Instr.node (.str u.id) [ns, qual ns "unit"] []).exec g >>= _ = _
  cases e : (Instr.node (.str u.id) [ns, qual ns "unit"] []).exec g with
  | error => rfl
  | ok g1 =>
    have := (exec_ns_root e).1
    simp only [bind, Except.bind]
    rw [this, h.ns, execs_one]
    rfl

theorem numbered_token (i : Nat) : NodeId.str (numbered "token" i) = decToken i := by
  unfold numbered decToken
  congr 1
  apply String.toList_inj.1
  simp

theorem decAddToken_eq {ns : String} {st : DecState} (h : DisState ns st.g) (u : String) {w : DecWord} (hw : w.Fine) {attrs : Attrs} (ha : attrs = w.feats.map (fun f => (qual ns f.1, strVal f.2))) :
    ∃ g', decAddToken u attrs st w.word = .ok { st with g := g', tokenCount := st.tokenCount + 1 } ∧ DecRuns ns st.g (decWordCalls ns u (w, st.tokenCount)) g' := by
  obtain ⟨g', hr⟩ := DecRuns.of h (decWordCalls_ok (u := u) (w := (w, st.tokenCount)) hw)
  refine ⟨g', ?_, hr⟩
  have hr1 := hr.1
  have hu : Dict.upd attrs [(qual ns "token", strVal w.word)] = decAttrs ns w := by
    rw [ha]
    unfold decAttrs
    have : qual ns "token" ∉ keys (w.feats.map (fun f => (qual ns f.1, strVal f.2))) := by
      unfold keys
      rw [List.map_map]
      intro hm
      obtain ⟨f, hf, e⟩ := List.mem_map.1 hm
      exact hw.2 (qual_inj e ▸ List.mem_map_of_mem hf)
    show put _ _ _ = _
    rw [put_of_not_mem _ _ _ this]
  unfold decAddToken
  dsimp only
  rw [h.ns, hu, numbered_token]
  unfold decWordCalls at hr1
  rw [execs_cons] at hr1
  rw [show st.g.addNode (decToken st.tokenCount) (.set [.str ns, .str (qual ns "token")]) (.dict (decAttrs ns w)) [] = (Instr.node (decToken st.tokenCount) [ns, qual ns "token"] (decAttrs ns w)).exec st.g from addNode_dict st.g (decToken st.tokenCount) [ns, qual ns "token"] (decAttrs ns w)]
  cases e : (Instr.node (decToken st.tokenCount) [ns, qual ns "token"] (decAttrs ns w)).exec st.g with
  | error => rw [e] at hr1; cases hr1
  | ok g1 =>
    rw [e] at hr1
    have hn := (exec_ns_root e).1
    rw [h.ns] at hn
    simp only [bind, Except.bind] at hr1 ⊢
    rw [execs_cons] at hr1
    simp only [Instr.exec, bind, Except.bind] at hr1
    rw [execs_one] at hr1
    simp only [Instr.exec] at hr1
    subst hn
    rw [show DG.addEdge _ (.str u) (decToken st.tokenCount) (.set [.str g1.ns, .str (qual g1.ns "unit")]) none .none [("edge_type", .atom (.str spanningRelation))] = .ok g' from hr1]
    rfl

theorem decAddTokens_eq {ns : String} (u : String) (ws : List DecWord) (hw : ∀ w ∈ ws, w.feats = []) : ∀ {st : DecState}, DisState ns st.g →
    ∃ g', (ws.map DecWord.word).foldlM (decAddToken u []) st = .ok { st with g := g', tokenCount := st.tokenCount + ws.length } ∧ DecRuns ns st.g ((ws.zipIdx st.tokenCount).flatMap (decWordCalls ns u)) g' := by
  induction ws with
  | nil => intro st h; exact ⟨st.g, rfl, .nil h⟩
  | cons w ws ih =>
    intro st h
    have hf := hw w (by simp)
    obtain ⟨g1, e1, r1⟩ := decAddToken_eq h u (w := w) (by unfold DecWord.Fine; rw [hf]; simp) (attrs := []) (by rw [hf]; rfl)
    obtain ⟨g2, e2, r2⟩ := ih (fun x hx => hw x (List.mem_cons_of_mem _ hx)) (st := { st with g := g1, tokenCount := st.tokenCount + 1 }) r1.2.1
    refine ⟨g2, ?_, ?_⟩
    · rw [List.map_cons, List.foldlM_cons, e1]
      show List.foldlM _ _ _ = _
      rw [e2, List.length_cons]
      simp only [Nat.add_assoc, Nat.add_comm 1]
    · rw [List.zipIdx_cons, List.flatMap_cons]
      exact r1.trans r2

theorem splitWords (t : XText) : ∀ x, t = some x → decSplit t = .ok ((XText.words t).map DecWord.word) := by
  rintro x rfl
  unfold decSplit XText.words
  rw [List.map_map]
  simp [Function.comp_def]

theorem words_feats (t : XText) : ∀ w ∈ XText.words t, w.feats = [] := by
  intro w hw
  obtain ⟨_, _, rfl⟩ := List.mem_map.1 hw
  rfl

theorem decAddSpan_eq {ns : String} (u : String) {t : XText} (ht : t ≠ none) {st : DecState} (h : DisState ns st.g) :
    ∃ g', decAddSpan u t st = .ok { st with g := g', tokenCount := st.tokenCount + (XText.words t).length } ∧ DecRuns ns st.g (((XText.words t).zipIdx st.tokenCount).flatMap (decWordCalls ns u)) g' := by
  obtain ⟨x, rfl⟩ := Option.ne_none_iff_exists'.1 ht
  obtain ⟨g', e, r⟩ := decAddTokens_eq u (XText.words (some x)) (words_feats _) h
  refine ⟨g', ?_, r⟩
  unfold decAddSpan
  rw [splitWords _ x rfl]
  exact e

/-- adding a unit with its words -/
theorem decUnit_span {ns : String} {st : DecState} (h : DisState ns st.g) {t : XText} (ht : t ≠ none) (u : String) (p : Option String) {s : NodeId} (hs : s = decSource ns p) :
    ∃ g1 g', decAddUnit st.g s u = .ok g1 ∧ decAddSpan u t { st with g := g1 } = .ok { st with g := g', tokenCount := st.tokenCount + (XText.words t).length } ∧
      DecRuns ns st.g (decUnitCalls ns st.tokenCount ⟨u, p, XText.words t⟩) g' := by
  obtain ⟨g1, e1, r1⟩ := decAddUnit_eq h ⟨u, p, XText.words t⟩ hs
  obtain ⟨g2, e2, r2⟩ := decAddSpan_eq u ht (st := { st with g := g1 }) r1.2.1
  exact ⟨g1, g2, e1, e2, r1.trans r2⟩

/-! ### utterances -/

theorem uttWords_some (t a b c : List Char) : uttWords (some t) [some a, some b, some c] = ((splitWs t).zip ((splitWs a).zip ((splitWs b).zip (splitWs c)))).map (fun w => ⟨w.1, [("norm", w.2.1), ("lemma", w.2.2.1), ("pos", w.2.2.2)]⟩) := rfl

theorem uttWords_fine (text : XText) (cs : List XText) : ∀ w ∈ uttWords text cs, w.Fine := by
  intro w hw
  obtain ⟨_, _, rfl⟩ := List.mem_map.1 hw
  constructor <;> simp

theorem decWords_eq {ns u : String} (norm lem pos : List (List Char)) (ws : List (List Char)) : ∀ (k : Nat), ws.length + k ≤ norm.length → ws.length + k ≤ lem.length → ws.length + k ≤ pos.length → ∀ {st : DecState}, DisState ns st.g →
    ∃ g', (ws.zipIdx k).foldlM (decAddWord u norm lem pos) st = .ok { st with g := g', tokenCount := st.tokenCount + ws.length } ∧
      DecRuns ns st.g ((((ws.zip ((norm.drop k).zip ((lem.drop k).zip (pos.drop k)))).map (fun w => (⟨w.1, [("norm", w.2.1), ("lemma", w.2.2.1), ("pos", w.2.2.2)]⟩ : DecWord))).zipIdx st.tokenCount).flatMap (decWordCalls ns u)) g' := by
  induction ws with
  | nil => intro k _ _ _ st h; exact ⟨st.g, rfl, .nil h⟩
  | cons w ws ih =>
    intro k h1 h2 h3 st h
    simp only [List.length_cons] at h1 h2 h3
    have k1 : k < norm.length := by omega
    have k2 : k < lem.length := by omega
    have k3 : k < pos.length := by omega
    obtain ⟨g1, e1, r1⟩ := decAddToken_eq h u (w := ⟨w, [("norm", norm[k]), ("lemma", lem[k]), ("pos", pos[k])]⟩) (by constructor <;> simp) (attrs := _) rfl
    obtain ⟨g2, e2, r2⟩ := ih (k + 1) (by omega) (by omega) (by omega) (st := { st with g := g1, tokenCount := st.tokenCount + 1 }) r1.2.1
    refine ⟨g2, ?_, ?_⟩
    · rw [List.zipIdx_cons, List.foldlM_cons]
      have : decAddWord u norm lem pos st (w, k) = .ok { st with g := g1, tokenCount := st.tokenCount + 1 } := by
        unfold decAddWord listAt
        simp only [List.getElem?_eq_getElem k1, List.getElem?_eq_getElem k2, List.getElem?_eq_getElem k3, bind, Except.bind, h.ns]
        exact e1
      rw [this]
      show List.foldlM _ _ _ = _
      rw [e2, List.length_cons]
      simp only [Nat.add_assoc, Nat.add_comm 1]
    · rw [List.drop_eq_getElem_cons k1, List.drop_eq_getElem_cons k2, List.drop_eq_getElem_cons k3, List.zip_cons_cons, List.zip_cons_cons, List.zip_cons_cons, List.map_cons, List.zipIdx_cons, List.flatMap_cons]
      exact r1.trans r2

theorem uttWords_length {text : XText} {cs : List XText} {nr : Option String} (h : (DecPart.utterance nr text cs).Ok) : (uttWords text cs).length = (splitWs (text.getD [])).length := by
  obtain ⟨_, t, a, b, c, rfl, rfl, h1, h2, h3⟩ := h
  rw [uttWords_some]
  simp only [List.length_map, List.length_zip, Option.getD_some]
  omega

theorem decUtterance_eq {ns : String} {st : DecState} (h : DisState ns st.g) {text : XText} {cs : List XText} {nr : Option String} (ho : (DecPart.utterance nr text cs).Ok) (u : String) :
    ∃ g', decAddUtterance u text cs st = .ok { st with g := g', tokenCount := st.tokenCount + (uttWords text cs).length, utterances := st.utterances ++ [u] } ∧
      DecRuns ns st.g (((uttWords text cs).zipIdx st.tokenCount).flatMap (decWordCalls ns u)) g' := by
  have hl := uttWords_length ho
  obtain ⟨_, t, a, b, c, rfl, rfl, h1, h2, h3⟩ := ho
  obtain ⟨g', e, r⟩ := decWords_eq (u := u) (splitWs a) (splitWs b) (splitWs c) (splitWs t) 0 (by omega) (by omega) (by omega) h
  refine ⟨g', ?_, r⟩
  unfold decAddUtterance
  simp only [mapE, decSplit, bind, Except.bind, pure, Except.pure]
  rw [e, hl]
  rfl

/-! ### turns -/

/-- the number of words of the units -/
def unitLength (us : List DecUnit) : Nat := (us.map (fun u => u.words.length)).sum

theorem unitLength_append (us us' : List DecUnit) : unitLength (us ++ us') = unitLength us + unitLength us' := by
  unfold unitLength
  rw [List.map_append, List.sum_append]

theorem decCalls_one (ns : String) (i : Nat) (u : DecUnit) : decCalls ns i [u] = decUnitCalls ns i u := by
  rw [decCalls, decCalls, List.append_nil]

/-- the utterances among the parts of a turn -/
def partUnits (turn : String) (ps : List DecPart) : List DecUnit := ps.filterMap (fun p => match p with
  | .utterance nr text children => some ⟨"utterance_" ++ nr.getD "", some turn, uttWords text children⟩
  | _ => none)

theorem decParts_eq {ns : String} (turn : String) (ps : List DecPart) (hp : ∀ p ∈ ps, p.Ok) : ∀ {st : DecState}, DisState ns st.g →
    ∃ g', ps.foldlM (decAddPart turn) st = .ok { st with g := g', tokenCount := st.tokenCount + unitLength (partUnits turn ps), utterances := st.utterances ++ (partUnits turn ps).map DecUnit.id } ∧
      DecRuns ns st.g (decCalls ns st.tokenCount (partUnits turn ps)) g' := by
  induction ps with
  | nil =>
    intro st h
    refine ⟨st.g, ?_, .nil h⟩
    show Except.ok st = _
    simp [partUnits, unitLength]
  | cons p ps ih =>
    intro st h
    have ih := @ih (fun x hx => hp x (List.mem_cons_of_mem _ hx))
    cases p with
    | act x =>
      obtain ⟨g', e, r⟩ := ih h
      exact ⟨g', e, r⟩
    | utterance nr text cs =>
      have ho := hp _ (List.mem_cons_self ..)
      obtain ⟨n, rfl⟩ := Option.ne_none_iff_exists'.1 ho.1
      obtain ⟨g1, e1, r1⟩ := decAddUnit_eq h ⟨"utterance_" ++ n, some turn, uttWords text cs⟩ (s := .str turn) rfl
      obtain ⟨g2, e2, r2⟩ := decUtterance_eq (st := { st with g := g1 }) r1.2.1 ho ("utterance_" ++ n)
      obtain ⟨g3, e3, r3⟩ := ih (st := { st with g := g2, tokenCount := st.tokenCount + (uttWords text cs).length, utterances := st.utterances ++ ["utterance_" ++ n] }) r2.2.1
      have hu : partUnits turn (.utterance (some n) text cs :: ps) = ⟨"utterance_" ++ n, some turn, uttWords text cs⟩ :: partUnits turn ps := rfl
      refine ⟨g3, ?_, ?_⟩
      · rw [List.foldlM_cons]
        have : decAddPart turn st (.utterance (some n) text cs) = .ok { st with g := g2, tokenCount := st.tokenCount + (uttWords text cs).length, utterances := st.utterances ++ ["utterance_" ++ n] } := by
          unfold decAddPart
          simp only [bind, Except.bind]
          rw [show decAddUnit st.g (.str turn) ("utterance_" ++ n) = .ok g1 from e1]
          exact e2
        rw [this]
        show List.foldlM _ _ _ = _
        rw [e3, hu]
        simp only [unitLength, List.map_cons, List.sum_cons, List.append_assoc, Nat.add_assoc]
        rfl
      · rw [hu, decCalls]
        exact (r1.trans r2).trans r3

theorem findSome_acts (ps : List DecPart) : ps.findSome? DecPart.act? = (ps.filterMap DecPart.act?).head? := by
  induction ps with
  | nil => rfl
  | cons p ps ih =>
    cases p with
    | act x => rfl
    | utterance => exact ih

theorem decAct_eq {ns : String} {st : DecState} (h : DisState ns st.g) {t : DecTurn} (ho : ∀ x, t.acts.head? = some x → x ≠ none) {k : Nat} (hk : st.actCount = k + 1) :
    ∃ g', decAddAct t.id t st = .ok { st with g := g', tokenCount := st.tokenCount + unitLength ((t.acts.take 1).map (fun x => (⟨numbered "act" (k + 1), some t.id, XText.words x⟩ : DecUnit))), actCount := (k + if t.acts = [] then 0 else 1) + 1 } ∧
      DecRuns ns st.g (decCalls ns st.tokenCount ((t.acts.take 1).map (fun x => ⟨numbered "act" (k + 1), some t.id, XText.words x⟩))) g' := by
  have hf : t.parts.findSome? DecPart.act? = t.acts.head? := findSome_acts t.parts
  unfold decAddAct
  rw [hf]
  cases ha : t.acts with
  | nil =>
    refine ⟨st.g, ?_, .nil h⟩
    simp [unitLength, ← hk]
  | cons x xs =>
    obtain ⟨g1, g', e1, e2, r⟩ := decUnit_span h (ho x (by rw [ha]; rfl)) (numbered "act" (k + 1)) (some t.id) (s := .str t.id) rfl
    refine ⟨g', ?_, ?_⟩
    · simp only [List.head?_cons, hk, bind, Except.bind]
      rw [e1]
      dsimp only
      rw [hk] at e2
      rw [e2]
      simp [unitLength, pure, Except.pure]
    · rw [List.take_succ_cons, List.take_zero, List.map_cons, List.map_nil, decCalls_one]
      exact r

theorem turn_units (t : DecTurn) (k : Nat) : t.units k = ⟨t.id, none, []⟩ :: ((t.acts.take 1).map (fun x => ⟨numbered "act" (k + 1), some t.id, x.words⟩) ++ partUnits t.id t.parts) := rfl

theorem decTurn_eq {ns : String} {st : DecState} (h : DisState ns st.g) (hr : st.g.root = .str (ns ++ ":root_node")) {t : DecTurn} (hn : t.nr ≠ none) (ho : ∀ x, t.acts.head? = some x → x ≠ none) (hp : ∀ p ∈ t.parts, p.Ok) {k : Nat} (hk : st.actCount = k + 1) :
    ∃ g', decAddTurn st t = .ok { st with g := g', tokenCount := st.tokenCount + unitLength (t.units k), actCount := (k + if t.acts = [] then 0 else 1) + 1, turns := st.turns ++ [t.id], utterances := st.utterances ++ t.utterances.map DecUnit.id } ∧
      DecRuns ns st.g (decCalls ns st.tokenCount (t.units k)) g' := by
  obtain ⟨n, hn⟩ := Option.ne_none_iff_exists'.1 hn
  have hid : t.id = "turn_" ++ n := by unfold DecTurn.id; rw [hn]; rfl
  obtain ⟨g1, e1, r1⟩ := decAddUnit_eq h ⟨t.id, none, []⟩ (s := st.g.root) hr
  obtain ⟨g2, e2, r2⟩ := decAct_eq (st := { st with g := g1, turns := st.turns ++ [t.id] }) r1.2.1 ho hk
  obtain ⟨g3, e3, r3⟩ := decParts_eq t.id t.parts hp (st := { st with g := g2, tokenCount := st.tokenCount + unitLength ((t.acts.take 1).map (fun x => (⟨numbered "act" (k + 1), some t.id, XText.words x⟩ : DecUnit))), actCount := (k + if t.acts = [] then 0 else 1) + 1, turns := st.turns ++ [t.id] }) r2.2.1
  refine ⟨g3, ?_, ?_⟩
  · unfold decAddTurn
    rw [hn]
    simp only [bind, Except.bind, ← hid]
    rw [show decAddUnit st.g st.g.root t.id = .ok g1 from e1]
    dsimp only
    rw [e2]
    dsimp only
    rw [e3, turn_units]
    simp only [unitLength, List.map_cons, List.sum_cons, List.map_append, List.sum_append, List.length_nil, Nat.zero_add, Nat.add_assoc]
    rfl
  · rw [turn_units, decCalls, decCalls_append]
    refine ((DecRuns.trans (s := decUnitCalls ns st.tokenCount ⟨t.id, none, []⟩) ?_ (r2.trans r3)))
    have : decUnitCalls ns st.tokenCount ⟨t.id, none, []⟩ = decHead ns ⟨t.id, none, []⟩ := by
      unfold decUnitCalls
      simp
    rw [this]
    exact r1

theorem decTurns_eq {ns : String} (ts : List DecTurn) (ht : ∀ t ∈ ts, t.nr ≠ none ∧ (∀ x, t.acts.head? = some x → x ≠ none) ∧ ∀ p ∈ t.parts, p.Ok) : ∀ {k : Nat} {st : DecState}, DisState ns st.g → st.g.root = .str (ns ++ ":root_node") → st.actCount = k + 1 →
    ∃ g' a, ts.foldlM decAddTurn st = .ok { st with g := g', tokenCount := st.tokenCount + unitLength (turnUnits k ts), actCount := a, turns := st.turns ++ ts.map DecTurn.id, utterances := st.utterances ++ ts.flatMap (fun t => t.utterances.map DecUnit.id) } ∧
      DecRuns ns st.g (decCalls ns st.tokenCount (turnUnits k ts)) g' := by
  induction ts with
  | nil =>
    intro k st h _ _
    refine ⟨st.g, st.actCount, ?_, .nil h⟩
    simp [turnUnits, unitLength]; rfl
  | cons t ts ih =>
    intro k st h hr hk
    obtain ⟨h1, h2, h3⟩ := ht t (by simp)
    obtain ⟨g1, e1, r1⟩ := decTurn_eq h hr h1 h2 h3 hk
    obtain ⟨g2, a, e2, r2⟩ := ih (fun x hx => ht x (List.mem_cons_of_mem _ hx)) (k := k + if t.acts = [] then 0 else 1)
      (st := { st with g := g1, tokenCount := st.tokenCount + unitLength (t.units k), actCount := (k + if t.acts = [] then 0 else 1) + 1, turns := st.turns ++ [t.id], utterances := st.utterances ++ t.utterances.map DecUnit.id }) r1.2.1 (r1.2.2.trans hr) rfl
    refine ⟨g2, a, ?_, ?_⟩
    · rw [List.foldlM_cons, e1]
      show List.foldlM _ _ _ = _
      rw [e2, turnUnits, unitLength_append]
      simp only [List.map_cons, List.flatMap_cons, List.append_assoc, Nat.add_assoc]
      rfl
    · rw [turnUnits, decCalls_append]
      exact r1.trans r2

/-- the state after the document has been read (without precedence edges) -/
theorem decBody_eq {ns : String} {doc : DecDoc} (ho : doc.Ok) {st : DecState} (h : DisState ns st.g) (hr : st.g.root = .str (ns ++ ":root_node")) (hk : st.actCount = 1) :
    ∃ g' a, (do let st1 ← decAddIntro st doc.intro; let st2 ← doc.turns.foldlM decAddTurn st1; decAddConclu st2 doc.conclu) =
      .ok ⟨g', st.tokenCount + unitLength doc.units, a, st.turns ++ doc.turns.map DecTurn.id, st.utterances ++ doc.turns.flatMap (fun t => t.utterances.map DecUnit.id)⟩ ∧
      DecRuns ns st.g (decCalls ns st.tokenCount doc.units) g' := by
  obtain ⟨t, hi⟩ := ho.intro
  obtain ⟨g0, g1, e0, e1, r1⟩ := decUnit_span h (t := some t) (by simp) "intro" none (s := st.g.root) hr
  obtain ⟨g2, a, e2, r2⟩ := decTurns_eq doc.turns ho.turns (k := 0) (st := { st with g := g1, tokenCount := st.tokenCount + (XText.words (some t)).length }) r1.2.1 (r1.2.2.trans hr) hk
  have hr2 : g2.root = .str (ns ++ ":root_node") := (r2.2.2.trans r1.2.2).trans hr
  have hint : decAddIntro st doc.intro = .ok { st with g := g1, tokenCount := st.tokenCount + (XText.words (some t)).length } := by
    unfold decAddIntro
    rw [hi, e0]
    exact e1
  rw [hint]
  simp only [bind, Except.bind]
  rw [e2]
  dsimp only
  unfold DecDoc.units
  rw [hi]
  cases hc : doc.conclu with
  | none =>
    refine ⟨g2, a, ?_, ?_⟩
    · simp only [decAddConclu, Option.toList_none, List.map_nil, List.append_nil, unitLength, List.map_cons, List.sum_cons, Nat.add_assoc, Option.bind_some, id]
    · rw [Option.toList_none, List.map_nil, List.append_nil, decCalls]
      exact r1.trans r2
  | some x =>
    obtain ⟨g3, g4, e3, e4, r4⟩ := decUnit_span (st := ⟨g2, st.tokenCount + (XText.words (some t)).length + unitLength (turnUnits 0 doc.turns), a, st.turns ++ doc.turns.map DecTurn.id, st.utterances ++ doc.turns.flatMap (fun t => t.utterances.map DecUnit.id)⟩)
      r2.2.1 (t := x) (ho.conclu x hc) "conclu" none (s := g2.root) hr2
    refine ⟨g4, a, ?_, ?_⟩
    · simp only [decAddConclu, bind, Except.bind]
      rw [e3]
      dsimp only
      rw [e4]
      simp only [Option.toList_some, List.map_cons, List.map_nil, unitLength, List.sum_cons, List.map_append, List.sum_append, List.sum_nil, Nat.add_assoc, Option.bind_some, id, Nat.add_zero]
    · rw [decCalls, decCalls_append, Option.toList_some, List.map_cons, List.map_nil, decCalls_one]
      exact r1.trans (r2.trans r4)

end DG
end Dg
