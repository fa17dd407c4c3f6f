import Verif.Lemmas.Mmax
import Verif.Lemmas.UrmlRead
import Verif.Lemmas.DisRead
import Verif.Lemmas.Anaphoricity
import Verif.Props.C43
import Verif.Props.C59

/-! Reading a whole MMAX2 project: the calls. -/

namespace Dg
open Dict
namespace DG

variable {ns : String} {doc : MmaxDoc}

/-! ### words -/

/-- the calls for a word -/
def mmaxWordCalls (ns : String) (connected : Bool) (w : String × String) : List Instr :=
  [.token (.str w.1), .node (.str w.1) [ns, qual ns "token"] [(qual ns "token", strV w.2), ("label", strV w.2)]] ++ if connected then [.edge (docRoot ns) (.str w.1) [ns, qual ns "token"] []] else []

theorem mmaxWords_eq (connected : Bool) (ws : List (String × String)) (g : DG) (hn : g.ns = ns) (hr : g.root = docRoot ns) :
    (ws.map (fun w => (⟨w.1, some w.2⟩ : MmaxWord))).foldlM (mmaxAddWord connected) g = execs g (ws.flatMap (mmaxWordCalls ns connected)) := by
  rw [List.foldlM_map]
  refine foldlM_calls (ns := ns) (r := docRoot ns) _ _ ws ?_ g hn hr
  clear hr hn g
  intro g w _ hn hr
  subst hn
  unfold mmaxAddWord mmaxWordCalls
  dsimp only
  have e1 := addNode_dict { g with tokens := g.tokens ++ [.str w.1] } (.str w.1) [g.ns, qual g.ns "token"] [(qual g.ns "token", strV w.2), ("label", strV w.2)]
  rw [show (Val.set ([g.ns, qual g.ns "token"].map Atom.str)) = Val.set [.str g.ns, .str (qual g.ns "token")] from rfl] at e1
  rw [show ([(qual g.ns "token", .atom (.str w.2)), ("label", .atom (.str w.2))] : Attrs) = [(qual g.ns "token", strV w.2), ("label", strV w.2)] from rfl, e1]
  have key : ∀ g' : DG, (Instr.node (.str w.1) [g.ns, qual g.ns "token"] [(qual g.ns "token", strV w.2), ("label", strV w.2)]).exec { g with tokens := g.tokens ++ [.str w.1] } = .ok g' → g'.ns = g.ns ∧ g'.root = docRoot g.ns := by
    intro g' e
    rw [← execs_one] at e
    obtain ⟨h1, h2⟩ := execs_ns_root _ e
    exact ⟨h1, h2.trans hr⟩
  rw [List.cons_append, execs_cons]
  show _ = execs { g with tokens := g.tokens ++ [.str w.1] } _
  rw [List.cons_append, execs_cons, List.nil_append]
  cases he : (Instr.node (.str w.1) [g.ns, qual g.ns "token"] [(qual g.ns "token", strV w.2), ("label", strV w.2)]).exec { g with tokens := g.tokens ++ [.str w.1] } with
  | error x => rfl
  | ok g' =>
    obtain ⟨k1, k2⟩ := key g' he
    show (if connected = true then g'.addEdge g'.root _ (.set [.str g'.ns, .str (qual g'.ns "token")]) none .none [] else .ok g') = execs g' _
    rw [k1, k2]
    cases connected
    · rfl
    · show _ = execs g' [_]
      rw [execs_one]; rfl

/-! ### sentences -/

theorem span_ok {g : DG} {m : Markable} (hr : g.renamed = none) (hm : m.Spans) (hw : ∀ i ∈ m.ids, g.HasNode (.str i) ↔ i ∈ doc.wordIds) : g.spanstring2tokens (xval m.attrs "span") = .ok (doc.toks m) := by
  unfold spanstring2tokens
  rw [hm.ids]
  show Except.ok _ = Except.ok _
  congr 1
  unfold MmaxDoc.toks
  rw [← List.filterMap_eq_map, List.filterMap_filter]
  refine List.filterMap_congr ?_
  intro i hi
  unfold existingToken
  have hhas : Dict.has g.nodes (.str i) = decide (i ∈ doc.wordIds) := by
    rw [Bool.eq_iff_iff, has_iff, decide_eq_true_eq]
    exact hw i hi
  rw [hhas, hr]
  by_cases hw : i ∈ doc.wordIds <;> simp [hw]

theorem toks_tokens (m : Markable) : ∀ t ∈ doc.toks m, t ∈ doc.tokens := by
  intro t ht
  obtain ⟨i, hi, rfl⟩ := List.mem_map.1 ht
  exact List.mem_map.2 ⟨i, by simpa using (List.mem_filter.1 hi).2, rfl⟩

theorem toks_filter {g : DG} (h : g.tokens = doc.tokens) (m : Markable) : (doc.toks m).filter (fun t => decide (t ∈ g.tokens)) = doc.toks m := by
  rw [List.filter_eq_self]
  intro t ht
  rw [h]
  simpa using toks_tokens m t ht

/-- the calls for a sentence that is kept apart -/
def mmaxSentCalls (ns : String) (doc : MmaxDoc) (m : Markable) : List Instr := (doc.toks m).map (fun _ => .node m.node [ns, qual ns "sentence"] [])

/-- the sentence with its tokens -/
def sentPair (doc : MmaxDoc) (m : Markable) : NodeId × List NodeId := (m.node, doc.toks m)

theorem sentNodes_eq (n : NodeId) (ts : List NodeId) : ∀ g : DG, g.ns = ns → ts.foldlM (fun g _ => g.addNode n (.set [.str g.ns, .str (qual g.ns "sentence")]) .none []) g = execs g (ts.map (fun _ => .node n [ns, qual ns "sentence"] [])) := by
  induction ts with
  | nil => intro g _; rfl
  | cons t ts ih =>
    intro g hn
    rw [List.foldlM_cons, List.map_cons, execs_cons, hn]
    have e : g.addNode n (.set [.str ns, .str (qual ns "sentence")]) .none [] = (Instr.node n [ns, qual ns "sentence"] []).exec g := rfl
    rw [e]
    cases he : (Instr.node n [ns, qual ns "sentence"] []).exec g with
    | error x => rfl
    | ok g' =>
      rw [← execs_one] at he
      exact ih g' ((execs_ns_root _ he).1.trans hn)

theorem mmaxSentence_eq {g : DG} {acc : List (NodeId × List NodeId)} {m : Markable} (hn : g.ns = ns) (hr : g.renamed = none) (ht : g.tokens = doc.tokens) (hm : m.Spans) (hw : ∀ i ∈ m.ids, g.HasNode (.str i) ↔ i ∈ doc.wordIds) :
    mmaxSentence (g, acc) m.attrs = (execs g (mmaxSentCalls ns doc m)).map (fun g' => (g', acc ++ [sentPair doc m])) := by
  unfold mmaxSentence
  rw [xmlAttr_ok hm.id, xmlAttr_ok hm.span]
  simp only [bind, Except.bind]
  rw [span_ok hr hm hw]
  simp only [toks_filter ht]
  rw [sentNodes_eq (ns := ns) _ _ g hn]
  show _ = Except.map _ (execs g ((doc.toks m).map (fun _ => .node (.str (xval m.attrs "id")) [ns, qual ns "sentence"] [])))
  cases execs g ((doc.toks m).map (fun _ => .node (.str (xval m.attrs "id")) [ns, qual ns "sentence"] [])) <;> rfl

theorem mmaxSentCalls_ok (ns : String) (doc : MmaxDoc) (m : Markable) : ∀ i ∈ mmaxSentCalls ns doc m, i.Ok (fun _ => False) := by
  intro i hi
  obtain ⟨t, _, rfl⟩ := List.mem_map.1 hi
  exact ⟨by simp, by simp [keys]⟩

/-- the loop over the sentences -/
theorem mmaxSentences_upto {X Y : NodeId → Atom → Prop} (ms : List Markable) : ∀ (g g' : DG) (acc : List (NodeId × List NodeId)), Upto X Y g g' → DisState ns g → g.renamed = none → g.tokens = doc.tokens →
    (∀ m ∈ ms, m.Spans ∧ ∀ i ∈ m.ids, (g.HasNode (.str i) ↔ i ∈ doc.wordIds) ∧ .str i ∉ ms.map Markable.node) →
    ∃ r r', execs g (ms.flatMap (mmaxSentCalls ns doc)) = .ok r ∧ Upto X Y r r' ∧ (ms.map Markable.attrs).foldlM mmaxSentence (g', acc) = .ok (r', acc ++ ms.map (sentPair doc)) := by
  induction ms with
  | nil => intro g g' acc hu _ _ _ _; exact ⟨g, g', rfl, hu, by simp; rfl⟩
  | cons m ms ih =>
    intro g g' acc hu hst hr ht hm
    obtain ⟨h1, h2⟩ := hm m (by simp)
    obtain ⟨g1, f1, s1, b1⟩ := execs_state hst (mmaxSentCalls_ok ns doc m)
    obtain ⟨g1', f1', hu1⟩ := Upto.execs (s := mmaxSentCalls ns doc m) (by
      intro i hi
      obtain ⟨t, _, rfl⟩ := List.mem_map.1 hi
      exact ⟨by simp, by simp [keys]⟩) hu f1
    have ht1 : g1.tokens = doc.tokens := by
      rw [b1.tokens, ht]
      have : (mmaxSentCalls ns doc m).flatMap Instr.newTokens = [] := by
        rw [List.flatMap_eq_nil_iff]
        intro i hi
        obtain ⟨t, _, rfl⟩ := List.mem_map.1 hi
        rfl
      rw [this, List.append_nil]
    obtain ⟨r, r', e1, e2, e3⟩ := ih g1 g1' (acc ++ [sentPair doc m]) hu1 s1 (b1.renamed.trans hr) ht1 (by
      intro x hx
      obtain ⟨k1, k2⟩ := hm x (by simp [hx])
      refine ⟨k1, fun i hi => ⟨?_, fun hmem => (k2 i hi).2 (by simp [hmem])⟩⟩
      rw [← (k2 i hi).1, b1.nodes]
      constructor
      · rintro (h | ⟨j, hj, hmen⟩)
        · exact h
        · obtain ⟨t, _, rfl⟩ := List.mem_map.1 hj
          exact absurd (by rw [show NodeId.str i = m.node from hmen]; simp) (k2 i hi).2
      · exact .inl)
    refine ⟨r, r', ?_, e2, ?_⟩
    · rw [List.flatMap_cons, execs_append, f1]; exact e1
    · rw [List.map_cons, List.foldlM_cons, mmaxSentence_eq (hu.ns.trans hst.ns) (hu.renamed.trans hr) (hu.tokens.trans ht) h1 (fun i hi => (hu.hasNode _).trans (h2 i hi).1), f1']
      show List.foldlM mmaxSentence (g1', acc ++ [sentPair doc m]) _ = _
      rw [e3]
      simp

theorem pySorted_map {α β : Type} (le : β → β → Bool) (f : α → β) (xs : List α) : pySorted le (xs.map f) = (pySorted (fun a b => le (f a) (f b)) xs).map f := by
  have hins : ∀ (x : α) (ys : List α), insertSorted le (f x) (ys.map f) = (insertSorted (fun a b => le (f a) (f b)) x ys).map f := by
    intro x ys
    induction ys with
    | nil => rfl
    | cons y ys ih =>
      simp only [List.map_cons, insertSorted]
      split
      · rfl
      · rw [ih]; rfl
  induction xs with
  | nil => rfl
  | cons x xs ih => rw [List.map_cons, pySorted, pySorted, ih, hins]

/-- comparison of sentences -/
def sentLe (doc : MmaxDoc) (a b : Markable) : Bool := naturalLe ((doc.toks a).headD (.int 0)) ((doc.toks b).headD (.int 0))

theorem mmaxSort_eq (sl : List Markable) (h : ∀ m ∈ sl, doc.toks m ≠ []) : mmaxSort (sl.map (sentPair doc)) = .ok ((pySorted (sentLe doc) sl).map (sentPair doc)) := by
  unfold mmaxSort
  rw [if_pos (by
    rw [List.all_eq_true]
    intro x hx
    obtain ⟨m, hm, rfl⟩ := List.mem_map.1 hx
    have := h m hm
    cases ht : doc.toks m with
    | nil => exact absurd ht this
    | cons t ts => simp [sentPair, ht])]
  rw [pySorted_map]
  rfl

/-- the calls for the sorted sentences -/
def finalCalls (doc : MmaxDoc) (ss : List Markable) : List Instr := ss.map (fun m => .sentence m.node) ++ ss.map (fun m => .attr m.node "tokens" (idListVal (doc.toks m)))

theorem execs_sentences (ss : List Markable) : ∀ g : DG, execs g (ss.map (fun m => .sentence m.node)) = .ok { g with sentences := g.sentences ++ ss.map Markable.node } := by
  induction ss with
  | nil => intro g; simp [execs_nil]
  | cons m ss ih =>
    intro g
    rw [List.map_cons, execs_cons]
    show execs { g with sentences := g.sentences ++ [m.node] } _ = _
    rw [ih]
    simp

theorem mmaxSetSentences_eq {g : DG} (ss : List Markable) (hs : ss ≠ []) (h0 : g.sentences = []) : g.mmaxSetSentences (ss.map (sentPair doc)) = execs g (finalCalls doc ss) := by
  unfold mmaxSetSentences finalCalls
  rw [if_neg (by simpa using hs), execs_append, execs_sentences, h0]
  show _ = execs { g with sentences := [] ++ ss.map Markable.node } _
  rw [List.nil_append, List.map_map, List.foldlM_map]
  show _ = List.foldlM Instr.exec _ (ss.map _)
  rw [List.foldlM_map]
  rfl

/-! ### levels -/

theorem MmaxSim.next {level level' : String} {g : DG} {st : MmaxState} (h : MmaxSim ns doc level g st) : MmaxSim ns doc level' g ⟨st.g, (levelLayers ns level').map Atom.str, [], []⟩ :=
  ⟨h.state, h.upto, ⟨_, rfl, fun _ h => h, fun _ h => .inl h⟩, by simp, by simp, h.renamed, h.words, h.known⟩

/-- the markables of some levels -/
def levelMarks (lv : List (String × List Markable)) : List (String × Markable) := lv.flatMap (fun x => x.2.map (fun m => (x.1, m)))

theorem mmaxLevels {file : String → Option (List XAttrs)} : ∀ (lv : List (String × List Markable)), (∀ x ∈ lv, file x.1 = some (x.2.map Markable.attrs)) →
    (∀ x ∈ levelMarks lv, x ∈ doc.marks ∧ x.2.Ok ∧ ∀ i ∈ x.2.ids, i ∈ doc.wordIds ∨ (i ∉ doc.markIds ++ doc.anteIds ∧ i ≠ qual ns "root_node")) →
    ∀ {level : String} {g : DG} {st : MmaxState}, MmaxSim ns doc level g st →
    ∃ g1 level1 st1, execs g ((levelMarks lv).flatMap (markCalls ns doc)) = .ok g1 ∧ (lv.map Prod.fst).foldlM (fun g l => g.mmaxAddLevel l (file l)) st.g = .ok st1.g ∧ MmaxSim ns doc level1 g1 st1 := by
  intro lv
  induction lv with
  | nil => intro _ _ level g st h; exact ⟨g, level, st, rfl, rfl, h⟩
  | cons x lv ih =>
    intro hf hm level g st h
    have hns : st.g.ns = ns := h.upto.ns.trans h.state.ns
    obtain ⟨g1, st1, e1, f1, h1, _⟩ := MmaxSim.readLevel x.2 (h.next (level' := x.1)) (by
      intro m hmem
      exact hm (x.1, m) (List.mem_flatMap.2 ⟨x, by simp, List.mem_map.2 ⟨m, hmem, rfl⟩⟩))
    obtain ⟨g2, level2, st2, e2, f2, h2⟩ := ih (fun y hy => hf y (by simp [hy])) (by
      intro y hy
      refine hm y ?_
      unfold levelMarks at hy ⊢
      rw [List.flatMap_cons]
      exact List.mem_append_right _ hy) h1
    refine ⟨g2, level2, st2, ?_, ?_, h2⟩
    · unfold levelMarks
      rw [List.flatMap_cons, List.flatMap_append, execs_append, e1]; exact e2
    · rw [List.map_cons, List.foldlM_cons]
      have : st.g.mmaxAddLevel x.1 (file x.1) = .ok st1.g := by
        unfold mmaxAddLevel
        rw [hf x (by simp), hns]
        show ((x.2.map Markable.attrs).foldlM (mmaxAddMarkable x.1) ⟨st.g, (levelLayers ns x.1).map Atom.str, [], []⟩ >>= fun st => pure st.g) = _
        rw [f1]; rfl
      rw [this]; exact f2

/-! ### the whole document up to the sentences -/

/-- the calls for the words -/
def mmaxTokenCalls (ns : String) (precedence connected : Bool) (doc : MmaxDoc) : List Instr :=
  .node (docRoot ns) [ns] [] :: (doc.words.flatMap (mmaxWordCalls ns (connected && !precedence)) ++ if precedence then edgeCalls (precEdges ns (docRoot ns) doc.tokens) else [])

/-- the calls for the words and the markables -/
def mmaxCalls (ns : String) (precedence connected : Bool) (doc : MmaxDoc) (lv : List (String × List Markable)) : List Instr :=
  mmaxTokenCalls ns precedence connected doc ++ (levelMarks lv).flatMap (markCalls ns doc)

/-- the graph at the beginning -/
def mmaxStart (name ns : String) : DG := { init "" ns none with name := name }

theorem mmaxWordCalls_ok (ns : String) (connected : Bool) (w : String × String) : ∀ i ∈ mmaxWordCalls ns connected w, i.Ok (fun _ => False) := by
  intro i hi
  unfold mmaxWordCalls at hi
  cases connected <;> simp only [List.mem_append, List.mem_cons, List.not_mem_nil, or_false, if_true, if_false, Bool.false_eq_true] at hi
  · rcases hi with rfl | rfl
    · trivial
    · exact ⟨by simp, by simp [keys]; exact fun h => qual_ne_plain (a := "token") (b := "label") (by decide) h⟩
  · rcases hi with (rfl | rfl) | rfl
    · trivial
    · exact ⟨by simp, by simp [keys]; exact fun h => qual_ne_plain (a := "token") (b := "label") (by decide) h⟩
    · exact ⟨by simp, by simp [keys]⟩

theorem mmaxTokenCalls_ok (ns : String) (precedence connected : Bool) (doc : MmaxDoc) : ∀ i ∈ mmaxTokenCalls ns precedence connected doc, i.Ok (fun _ => False) := by
  intro i hi
  unfold mmaxTokenCalls at hi
  rcases List.mem_cons.1 hi with rfl | hi
  · exact ⟨by simp, by simp [keys]⟩
  rcases List.mem_append.1 hi with hi | hi
  · obtain ⟨w, _, hi⟩ := List.mem_flatMap.1 hi
    exact mmaxWordCalls_ok ns _ w i hi
  · split at hi
    · obtain ⟨e, he, rfl⟩ := List.mem_map.1 hi
      obtain ⟨q, _, rfl⟩ := List.mem_map.1 he
      exact ⟨by simp [precEdge], by simp [precEdge, keys]⟩
    · cases hi

theorem markCalls_ok (ns : String) (doc : MmaxDoc) (x : String × Markable) (hx : (keys x.2.attrs).Nodup) : ∀ i ∈ markCalls ns doc x, i.Ok (fun _ => False) := by
  intro i hi
  unfold markCalls at hi
  rcases List.mem_cons.1 hi with rfl | hi
  · exact ⟨by simp [levelLayers], keys_label hx⟩
  rcases List.mem_append.1 hi with hi | hi
  · obtain ⟨t, _, rfl⟩ := List.mem_map.1 hi
    exact ⟨by simp [levelLayers], by simp [keys]⟩
  · obtain ⟨a, _, hi⟩ := List.mem_flatMap.1 hi
    unfold anteCalls at hi
    rcases List.mem_append.1 hi with hi | hi
    · split at hi
      · cases hi
      · rw [List.mem_singleton.1 hi]; exact ⟨by simp, by simp [keys]⟩
    · rw [List.mem_singleton.1 hi]; exact ⟨by simp [levelLayers], by simp [keys]⟩

theorem mmaxTokenCalls_tokens (ns : String) (precedence connected : Bool) (doc : MmaxDoc) : (mmaxTokenCalls ns precedence connected doc).flatMap Instr.newTokens = doc.tokens := by
  unfold mmaxTokenCalls
  rw [List.flatMap_cons, List.flatMap_append]
  have h1 : (if precedence then edgeCalls (precEdges ns (docRoot ns) doc.tokens) else []).flatMap Instr.newTokens = [] := by
    split
    · exact edgeCalls_tokens _
    · rfl
  rw [h1, List.append_nil, List.flatMap_assoc]
  have h2 : ∀ w, (mmaxWordCalls ns (connected && !precedence) w).flatMap Instr.newTokens = [.str w.1] := by
    intro w
    unfold mmaxWordCalls
    cases (connected && !precedence) <;> rfl
  show [] ++ _ = _
  simp only [h2, List.nil_append]
  unfold MmaxDoc.tokens MmaxDoc.wordIds
  rw [List.map_map, ← List.map_eq_flatMap]; rfl

theorem mmaxTokenCalls_mentions (ns : String) (precedence connected : Bool) (doc : MmaxDoc) (m : NodeId) : (∃ i ∈ mmaxTokenCalls ns precedence connected doc, i.Mentions m) ↔ m = docRoot ns ∨ m ∈ doc.tokens := by
  unfold mmaxTokenCalls
  constructor
  · rintro ⟨i, hi, hm⟩
    rcases List.mem_cons.1 hi with rfl | hi
    · exact .inl hm
    rcases List.mem_append.1 hi with hi | hi
    · obtain ⟨w, hw, hi⟩ := List.mem_flatMap.1 hi
      have hwt : NodeId.str w.1 ∈ doc.tokens := List.mem_map.2 ⟨w.1, List.mem_map.2 ⟨w, hw, rfl⟩, rfl⟩
      unfold mmaxWordCalls at hi
      rcases List.mem_append.1 hi with hi | hi
      · simp only [List.mem_cons, List.not_mem_nil, or_false] at hi
        rcases hi with rfl | rfl
        · exact hm.elim
        · right; rw [show m = _ from hm]; exact hwt
      · split at hi
        · rw [List.mem_singleton.1 hi] at hm
          rcases hm with rfl | rfl
          · exact .inl rfl
          · exact .inr hwt
        · cases hi
    · split at hi
      · obtain ⟨e, he, rfl⟩ := List.mem_map.1 hi
        obtain ⟨q, hq, rfl⟩ := List.mem_map.1 he
        obtain ⟨h1, h2⟩ := List.of_mem_zip hq
        rcases hm with rfl | rfl
        · rcases List.mem_cons.1 h1 with h | h
          · exact .inl h
          · exact .inr h
        · exact .inr h2
      · cases hi
  · rintro (rfl | hm)
    · exact ⟨_, List.mem_cons_self, rfl⟩
    · obtain ⟨i, hi, rfl⟩ := List.mem_map.1 hm
      obtain ⟨w, hw, rfl⟩ := List.mem_map.1 hi
      exact ⟨.node (.str w.1) [ns, qual ns "token"] [(qual ns "token", strV w.2), ("label", strV w.2)], List.mem_cons_of_mem _ (List.mem_append_left _ (List.mem_flatMap.2 ⟨w, hw, by unfold mmaxWordCalls; simp⟩)), rfl⟩

/-- the words -/
theorem mmaxTokens_eq (name : String) (precedence connected : Bool) (hp : precedence = true → 2 ≤ doc.words.length) :
    ∃ g, execs (mmaxStart name ns) (mmaxTokenCalls ns precedence connected doc) = .ok g ∧ Built (mmaxStart name ns) (mmaxTokenCalls ns precedence connected doc) g ∧
      (do
        let g1 ← (mmaxStart name ns).addNode (.str (qual ns "root_node")) (.set [.str ns]) .none []
        if precedence then do
          let g ← (doc.words.map (fun w : String × String => (⟨w.1, some w.2⟩ : MmaxWord))).foldlM (mmaxAddWord false) { g1 with tokens := [] }
          batch g.addPrecedenceRelations
        else (doc.words.map (fun w : String × String => (⟨w.1, some w.2⟩ : MmaxWord))).foldlM (mmaxAddWord connected) { g1 with tokens := [] }) = .ok g := by
  have hst : DisState ns (mmaxStart name ns) := init_state name ns
  obtain ⟨g, e, s, b⟩ := execs_state hst (mmaxTokenCalls_ok ns precedence connected doc)
  refine ⟨g, e, b, ?_⟩
  have hroot : (mmaxStart name ns).root = docRoot ns := (sees_init name ns).root
  obtain ⟨g1, e1, s1, b1⟩ := execs_state hst (s := [.node (docRoot ns) [ns] []]) (by intro i hi; rw [List.mem_singleton.1 hi]; exact ⟨by simp, by simp [keys]⟩)
  have e1' : (mmaxStart name ns).addNode (.str (qual ns "root_node")) (.set [.str ns]) .none [] = .ok g1 := by rw [execs_one] at e1; exact e1
  rw [e1']
  have ht : ({ g1 with tokens := [] } : DG) = g1 := by
    have h0 : g1.tokens = [] := by rw [b1.tokens]; rfl
    rw [← h0]
  show (if precedence then _ else _) = _
  rw [ht]
  have hn1 : g1.ns = ns := s1.ns
  have hr1 : g1.root = docRoot ns := b1.root.trans hroot
  unfold mmaxTokenCalls at e
  rw [execs_cons, ← execs_one, e1] at e
  have e : execs g1 (doc.words.flatMap (mmaxWordCalls ns (connected && !precedence)) ++ if precedence then edgeCalls (precEdges ns (docRoot ns) doc.tokens) else []) = .ok g := e
  rw [execs_append] at e
  cases precedence with
  | false =>
    simp only [Bool.false_eq_true, if_false, Bool.not_false, Bool.and_true] at e ⊢
    rw [mmaxWords_eq connected doc.words g1 hn1 hr1]
    cases he : execs g1 (doc.words.flatMap (mmaxWordCalls ns connected)) with
    | error x => rw [he] at e; cases e
    | ok g2 => rw [he] at e; exact e
  | true =>
    simp only [if_true, Bool.not_true, Bool.and_false] at e ⊢
    rw [mmaxWords_eq false doc.words g1 hn1 hr1]
    obtain ⟨g2, e2, s2, b2⟩ := execs_state s1 (s := doc.words.flatMap (mmaxWordCalls ns false)) (by
      intro i hi
      obtain ⟨w, _, hi⟩ := List.mem_flatMap.1 hi
      exact mmaxWordCalls_ok ns _ w i hi)
    rw [e2] at e ⊢
    have ht2 : g2.tokens = doc.tokens := by
      rw [b2.tokens, b1.tokens, List.flatMap_assoc]
      show [] ++ [] ++ doc.words.flatMap (fun w => [NodeId.str w.1]) = _
      unfold MmaxDoc.tokens MmaxDoc.wordIds
      rw [List.map_map, ← List.map_eq_flatMap]; rfl
    have hlen : 2 ≤ g2.tokens.length := by
      rw [ht2]
      simpa [MmaxDoc.tokens, MmaxDoc.wordIds] using hp rfl
    obtain ⟨g3, f1, f2⟩ := precedence_execs s2 hlen
    rw [ht2, b2.root.trans hr1] at f2
    have e : execs g2 (edgeCalls (precEdges ns (docRoot ns) doc.tokens)) = .ok g := e
    rw [f2] at e
    cases e
    exact f1

/-- the words and the markables -/
theorem mmaxBase_eq {p : MmaxProject} (hm : ∀ x ∈ doc.marks, x.2.Ok) (hstray : ∀ x ∈ doc.marks, ∀ i ∈ x.2.ids, i ∈ doc.wordIds ∨ (i ∉ doc.markIds ++ doc.anteIds ∧ i ≠ qual ns "root_node"))
    (hw : p.words = doc.words.map (fun w => ⟨w.1, some w.2⟩)) (hf : ∀ x ∈ doc.levels, p.file (mmaxFileId p.base) x.1 = some (x.2.map Markable.attrs)) (name : String) (precedence connected : Bool) (h2 : precedence = true → 2 ≤ doc.words.length) {lv : List (String × List Markable)} (hlv : lv.Perm doc.levels) :
    ∃ g g', execs (mmaxStart name ns) (mmaxCalls ns precedence connected doc lv) = .ok g ∧ Built (mmaxStart name ns) (mmaxCalls ns precedence connected doc lv) g ∧ Upto (ExtraLayer ns doc) (ExtraEdgeLayer ns doc) g g' ∧
      ((do
        let g1 ← (mmaxStart name ns).addNode (.str (qual ns "root_node")) (.set [.str ns]) .none []
        if precedence then do
          let g ← p.words.foldlM (mmaxAddWord false) { g1 with tokens := [] }
          batch g.addPrecedenceRelations
        else p.words.foldlM (mmaxAddWord connected) { g1 with tokens := [] }) >>= fun g2 =>
        (lv.map Prod.fst).foldlM (fun g level => g.mmaxAddLevel level (p.file (mmaxFileId p.base) level)) g2) = .ok g' := by
  obtain ⟨g0, e0, b0, f0⟩ := mmaxTokens_eq (ns := ns) (doc := doc) name precedence connected h2
  have hmarks : ∀ x ∈ levelMarks lv, x ∈ doc.marks := by
    intro x hx
    obtain ⟨y, hy, hx⟩ := List.mem_flatMap.1 hx
    exact List.mem_flatMap.2 ⟨y, hlv.mem_iff.1 hy, hx⟩
  have hhas : ∀ m, g0.HasNode m ↔ m = docRoot ns ∨ m ∈ doc.tokens := by
    intro m
    rw [b0.nodes, mmaxTokenCalls_mentions, show (mmaxStart name ns).HasNode m ↔ _ from (sees_init name ns).nodes m]
    simp only [View.new]
    tauto
  have h0 : MmaxSim ns doc "" g0 ⟨g0, (levelLayers ns "").map Atom.str, [], []⟩ := by
    refine ⟨⟨b0.inv, b0.layered, b0.ns⟩, Upto.refl b0.inv b0.layered, ⟨_, rfl, fun _ h => h, fun _ h => .inl h⟩, by simp, by simp, b0.renamed, ?_, ?_⟩
    · intro i hi
      exact (hhas _).2 (.inr (List.mem_map.2 ⟨i, hi, rfl⟩))
    · intro n hn
      rcases (hhas n).1 hn with h | h
      · exact .inl h
      · exact .inr (.inl h)
  obtain ⟨g1, level1, st1, e1, f1, s1⟩ := mmaxLevels (ns := ns) (doc := doc) (file := p.file (mmaxFileId p.base)) lv (fun x hx => hf x (hlv.mem_iff.1 hx)) (by
    intro x hx
    exact ⟨hmarks x hx, hm x (hmarks x hx), hstray x (hmarks x hx)⟩) h0
  have etot : execs (mmaxStart name ns) (mmaxCalls ns precedence connected doc lv) = .ok g1 := by
    unfold mmaxCalls
    rw [execs_append, e0]; exact e1
  have hok : ∀ i ∈ mmaxCalls ns precedence connected doc lv, i.Ok (fun _ => False) := by
    intro i hi
    rcases List.mem_append.1 hi with hi | hi
    · exact mmaxTokenCalls_ok _ _ _ _ i hi
    · obtain ⟨x, hx, hi⟩ := List.mem_flatMap.1 hi
      exact markCalls_ok ns doc x (hm x (hmarks x hx)).attrs i hi
  obtain ⟨g1', e1', _, b1⟩ := execs_state (init_state name ns) hok
  have : g1' = g1 := by
    have := e1'.symm.trans etot
    exact Except.ok.inj this
  subst this
  refine ⟨g1', st1.g, etot, b1, s1.upto, ?_⟩
  rw [hw, f0]
  exact f1

end DG
end Dg
