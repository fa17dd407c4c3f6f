import Verif.Lemmas.ExportContent
import Verif.Lemmas.ExportTimes
import Verif.Lemmas.MmaxContent

/-! The graph of an ExportXML document. -/

namespace Dg
open Dict
namespace DG

variable {ns : String} {o : ExpOpts} {text : XElem} {precedence : Bool}

/-- the graph before the elements are read -/
def expStart (name : Option String) (ns : String) (text : XElem) : DG :=
  init (match name with
    | some n => if n = "" then text.id.getD "" else n
    | none => text.id.getD "") ns (some text.node)

theorem init_facts (name ns s : String) (hs : s ≠ "") : (init name ns (some (.str s))).root = .str s ∧ (∀ m, (init name ns (some (.str s))).HasNode m ↔ m = .str s) ∧
    (∀ m k, k ≠ "layers" → (init name ns (some (.str s))).nodeAttr m k = if m = .str s ∧ k = "metadata" then some (.dict []) else none) ∧
    (∀ m l, (init name ns (some (.str s))).NodeLayer m l ↔ m = .str s ∧ l = .str ns) ∧ EdgesAre (init name ns (some (.str s))) [] := by
  have hr : defaultRoot ns (some (.str s)) = .str s := by simp [defaultRoot, hs]
  have he : ∀ u v, (init name ns (some (.str s))).kd? u v = none := fun u v => kd?_init ..
  refine ⟨?_, ?_, ?_, ?_, ?_, ?_, ?_⟩
  · rw [init_eq, hr]
  · intro m
    unfold HasNode
    rw [init_eq, hr]; simp [keys]
  · intro m k hk
    unfold nodeAttr nodeAttrs
    rw [init_eq, hr]
    simp only [find_cons, find_nil]
    by_cases hm : m = .str s
    · subst hm
      simp only [if_true, Option.bind_some, find_cons, find_nil, true_and, if_neg (Ne.symm hk)]
      by_cases h : k = "metadata" <;> simp [h, eq_comm]
    · simp [hm, Ne.symm hm]
  · intro m l
    unfold NodeLayer nodeAttrs
    rw [init_eq, hr]
    simp only [find_cons, find_nil]
    by_cases hm : m = .str s
    · subst hm
      simp [AttrsLayer, find_cons]
    · simp [hm, Ne.symm hm]
  · rintro u v a ⟨k, hk⟩
    unfold edgeAttrs at hk
    rw [he] at hk; simp at hk
  · simp
  · intro u v
    unfold edgeCount
    rw [he]; rfl

theorem expRead_eq (hok : ExpOk text) (name : Option String) : expRead name ns precedence o text =
    ((text.rows.foldlM (expStep o) (expStart name ns text)) >>= fun g => if precedence then batch g.addPrecedenceRelations else .ok g) := by
  unfold expRead expStart XElem.node
  cases hi : text.id with
  | none => exact absurd hi hok.id.1
  | some i =>
    have : (fun (g : DG) (r : XRow) => expElem o r.1 g r.2) = fun g r => (r.2.reads r.1).foldlM (expStep o) g := by
      funext g r; exact expElem_eq o r.1 g r.2
    simp only [this, foldlM_flatMap]
    rfl

theorem expBuilt (hok : ExpOk text) (name : Option String) : ∃ g, text.rows.foldlM (expStep o) (expStart name ns text) = .ok g ∧ Built (expStart name ns text) (text.rows.flatMap (expCalls o ns text.node)) g ∧
    NsFirst ns (fun m => m = text.node) (text.rows.flatMap (expCalls o ns text.node)) := by
  have hid : text.id.getD "" ≠ "" := by
    cases hi : text.id with
    | none => exact absurd hi hok.id.1
    | some i => intro e; exact hok.id.2 (by rw [hi]; exact congrArg some e)
  obtain ⟨f1, f2, _⟩ := init_facts (match name with
    | some n => if n = "" then text.id.getD "" else n
    | none => text.id.getD "") ns _ hid
  have st : ExpState ns text.node (fun m => m = text.node) (expStart name ns text) :=
    ⟨inv_init .., nodesLayered_init False _ _ _, by unfold expStart; rw [init_eq], f1, fun m hm => (f2 m).2 hm⟩
  have hrows : ∀ r ∈ text.rows, XRow.Ok r ∧ InsideOk r ∧ AncIds r.1 ∧ r.1 ≠ [] := by
    intro r hr
    have hd := mem_rows.1 hr
    exact ⟨hok.rows r hd, fun x hx => hok.rows x (descs_trans text hd hx), hok.ancIds hd, (descs_anc text hd).1⟩
  have hord : Ordered (fun m => m = text.node) text.rows := by
    refine descs_ordered text (fun a ha => by simp at ha) ?_ hok.rows
    intro i hi
    unfold XElem.node
    rw [hi]; rfl
  obtain ⟨e, k1, k2⟩ := rows_eq (o := o) hrows hord st
  obtain ⟨g, hg, _, b⟩ := st.after k1
  exact ⟨g, by rw [e, hg], b, k2⟩

theorem rows_tokens (hok : ExpOk text) : (text.rows.flatMap (expCalls o ns text.node)).flatMap Instr.newTokens = text.words ∧
    (text.rows.flatMap (expCalls o ns text.node)).flatMap Instr.newSentences = (text.rows.filter (fun r => decide (r.2.tag = "sentence"))).map (fun r => .str (XRow.own r)) := by
  have h : ∀ r ∈ text.rows, XRow.Ok r := fun r hr => hok.rows r (mem_rows.1 hr)
  unfold XElem.words
  generalize text.rows = L at h
  induction L with
  | nil => exact ⟨rfl, rfl⟩
  | cons r L ih =>
    obtain ⟨h1, h2⟩ := ih fun x hx => h x (List.mem_cons_of_mem _ hx)
    obtain ⟨t1, t2⟩ := exp_tokens (o := o) (ns := ns) (root := text.node) (h r (by simp))
    rw [List.flatMap_cons, List.flatMap_append, List.flatMap_append, t1, t2, h1, h2, List.filter_cons, List.filter_cons]
    constructor
    · by_cases ht : r.2.tag = "word" <;> simp [ht]
    · by_cases ht : r.2.tag = "sentence" <;> simp [ht]

theorem rows_spec (hok : ExpOk text) : ((text.rows.flatMap (expCalls o ns text.node)).filterMap Instr.spec).Perm (text.edges o ns) := by
  rw [flatMap_filterMap]
  have h : text.rows.flatMap (fun x => (expCalls o ns text.node x).filterMap Instr.spec) = text.rows.flatMap (XRow.edges o ns text.node) := by
    refine List.flatMap_congr fun r hr => ?_
    exact exp_spec (hok.rows r (mem_rows.1 hr))
  rw [h]
  refine (List.Perm.flatMap_right _ (rows_perm (text := text) (by rw [hok.tag]; decide))).trans ?_
  rw [List.flatMap_assoc]
  unfold XElem.edges
  refine List.Perm.of_eq ?_
  refine List.flatMap_congr fun r _ => ?_
  induction XRow.times r with
  | zero => rfl
  | succ n ih => rw [List.replicate_succ, List.flatMap_cons, ih, List.replicate_succ, List.flatten_cons]

theorem rows_writes (hok : ExpOk text) (m : NodeId) (k : String) : lastWrite m k (text.rows.flatMap (expCalls o ns text.node)) = lastOf m k (text.rows.flatMap (XRow.writes o ns)) := by
  have h : ∀ r ∈ text.rows, XRow.Ok r := fun r hr => hok.rows r (mem_rows.1 hr)
  generalize text.rows = L at h
  induction L with
  | nil => rfl
  | cons r L ih => rw [List.flatMap_cons, List.flatMap_cons, lastWrite_append, lastOf_append, ih fun x hx => h x (List.mem_cons_of_mem _ hx), exp_writes (h r (by simp))]

/-- precedence edges after the document has been read -/
def precPart (precedence : Bool) (ns : String) (text : XElem) : List EdgeSpec := if precedence then precEdges ns text.node text.words else []

theorem words_mem (hok : ExpOk text) {t : NodeId} (ht : t ∈ text.words) : ∃ r ∈ text.descs [], r.2.tag = "word" ∧ t = .str (XRow.own r) := by
  unfold XElem.words at ht
  obtain ⟨r, hr, rfl⟩ := List.mem_map.1 ht
  obtain ⟨h1, h2⟩ := List.mem_filter.1 hr
  exact ⟨r, mem_rows.1 h1, of_decide_eq_true h2, rfl⟩

theorem word_involved {r : XRow} {root : NodeId} (h : r.2.tag = "word") : XRow.Involves o ns root r (.str (XRow.own r)) := by
  refine .inr ⟨(XRow.own r, qual ns "token"), ?_, rfl⟩
  row_simp h h
  simp

theorem expContent (hok : ExpOk text) (name : Option String) (hp : precedence = true → 2 ≤ text.words.length) : ∃ g, expRead name ns precedence o text = .ok g ∧ ExpContent o ns precedence text g ∧ g.name = (expStart name ns text).name := by
  have hid : text.id.getD "" ≠ "" := by
    cases hi : text.id with
    | none => exact absurd hi hok.id.1
    | some i => intro e; exact hok.id.2 (by rw [hi]; exact congrArg some e)
  obtain ⟨f1, f2, f3, f4, f5⟩ := init_facts (match name with
    | some n => if n = "" then text.id.getD "" else n
    | none => text.id.getD "") ns _ hid
  obtain ⟨g, eg, b, nf⟩ := expBuilt (o := o) (ns := ns) hok name
  have hst : (expStart name ns text).ns = ns := by unfold expStart; rw [init_eq]
  have hroot : g.root = text.node := b.root.trans f1
  obtain ⟨t1, t2⟩ := rows_tokens (o := o) (ns := ns) hok
  have htok : g.tokens = text.words := by
    rw [b.tokens, t1]; unfold expStart; rw [init_eq]; rfl
  have hsent : g.sentences = (text.rows.filter (fun r => decide (r.2.tag = "sentence"))).map (fun r => .str (XRow.own r)) := by
    rw [b.sentences, t2]; unfold expStart; rw [init_eq]; rfl
  -- with precedence edges
  obtain ⟨g', eg', b'⟩ : ∃ g', expRead name ns precedence o text = .ok g' ∧ Built g (edgeCalls (precPart precedence ns text)) g' := by
    rw [expRead_eq hok, eg]
    show ∃ g', (if precedence then batch g.addPrecedenceRelations else .ok g) = .ok g' ∧ _
    have ds : DisState ns g := ⟨b.inv, b.layered, b.ns.trans hst⟩
    unfold precPart
    cases precedence with
    | false => exact ⟨g, rfl, built_nil b.inv b.layered⟩
    | true =>
      have h2 : 2 ≤ g.tokens.length := by rw [htok]; exact hp rfl
      obtain ⟨g1, e1, e2⟩ := precedence_execs ds h2
      rw [if_pos rfl, if_pos rfl]
      refine ⟨g1, e1, ?_⟩
      rw [hroot, htok] at e2
      obtain ⟨g2, e3, _, b3⟩ := execs_state ds (s := edgeCalls (precEdges ns text.node text.words)) (by
        intro i hi
        obtain ⟨e, he, rfl⟩ := List.mem_map.1 hi
        unfold precEdges at he
        obtain ⟨p, _, rfl⟩ := List.mem_map.1 he
        simp [Instr.Ok, precEdge, keys])
      rw [e2] at e3
      obtain rfl := Except.ok.inj e3
      exact b3
  have hmention : ∀ m, (∃ i ∈ text.rows.flatMap (expCalls o ns text.node), i.Mentions m) ↔ ∃ r ∈ text.descs [], XRow.Involves o ns text.node r m := by
    intro m
    constructor
    · rintro ⟨i, hi, hm⟩
      obtain ⟨r, hr, hi⟩ := List.mem_flatMap.1 hi
      exact ⟨r, mem_rows.1 hr, (exp_mentions (hok.rows r (mem_rows.1 hr))).1 ⟨i, hi, hm⟩⟩
    · rintro ⟨r, hr, hm⟩
      obtain ⟨i, hi, hm⟩ := (exp_mentions (hok.rows r hr)).2 hm
      exact ⟨i, List.mem_flatMap.2 ⟨r, mem_rows.2 hr, hi⟩, hm⟩
  have hnodes : ∀ m, g.HasNode m ↔ m = text.node ∨ ∃ r ∈ text.descs [], XRow.Involves o ns text.node r m := by
    intro m
    rw [b.nodes, hmention]
    exact or_congr_left (f2 m)
  have hnew : ∀ m, (∃ i ∈ edgeCalls (precPart precedence ns text), i.Mentions m) → g.HasNode m := by
    rintro m ⟨i, hi, hm⟩
    obtain ⟨e, he, rfl⟩ := List.mem_map.1 hi
    unfold precPart at he
    cases precedence with
    | false => simp at he
    | true =>
      rw [if_pos rfl] at he
      unfold precEdges at he
      obtain ⟨⟨u, v⟩, hz, rfl⟩ := List.mem_map.1 he
      obtain ⟨hu, hv⟩ := List.of_mem_zip hz
      have hw : ∀ t ∈ text.words, g.HasNode t := by
        intro t ht
        obtain ⟨r, hr, h1, rfl⟩ := words_mem hok ht
        exact (hnodes _).2 (.inr ⟨r, hr, word_involved h1⟩)
      rcases hm with rfl | rfl
      · rcases List.mem_cons.1 hu with hu | hu
        · rw [hnodes]; exact .inl hu
        · exact hw _ hu
      · exact hw _ hv
  have hnodes' : ∀ m, g'.HasNode m ↔ g.HasNode m := by
    intro m
    rw [b'.nodes]
    exact ⟨fun h => h.elim id (hnew m), .inl⟩
  refine ⟨g', eg', ⟨?_, ?_, ?_, ?_, ?_, ?_, ?_, ?_⟩, b'.name.trans b.name⟩
  · rw [b'.ns, b.ns, hst]
  · rw [b'.root, hroot]
  · rw [b'.tokens, htok, edgeCalls_tokens, List.append_nil]
  · rw [b'.sentences, hsent, edgeCalls_sentences, List.append_nil]
  · intro m
    rw [hnodes', hnodes]
  · have h1 : EdgesAre g ([] ++ text.edges o ns) := EdgesAre.built (es' := text.edges o ns) f5 b
      (fun u v ls at' => by rw [mem_spec]; exact (rows_spec hok).mem_iff) (fun u v => by rw [count_spec]; exact (rows_spec hok).countP_eq _)
    exact EdgesAre.built (es' := precPart precedence ns text) h1 b' (fun u v ls at' => mem_edgeCalls u v ls at') (fun u v => count_edgeCalls _ u v)
  · intro m l
    have hl0 : ∀ l, g.NodeLayer m l ↔ (g.HasNode m ∧ l = .str ns) ∨ ∃ r ∈ text.descs [], ∃ p ∈ XRow.layers o ns r, m = .str p.1 ∧ l = .str p.2 := by
      intro l
      rw [b.layer]
      constructor
      · rintro (h | h | ⟨_, h, rfl⟩)
        · obtain ⟨rfl, rfl⟩ := (f4 m l).1 h
          exact .inl ⟨(hnodes _).2 (.inl rfl), rfl⟩
        · obtain ⟨i, hi, hg⟩ := h
          obtain ⟨r, hr, hi'⟩ := List.mem_flatMap.1 hi
          have hg' := gives_iff.1 ⟨i, hi', hg⟩
          rcases ((exp_layers (hok.rows r (mem_rows.1 hr))).2 _ hg').1 with h | ⟨p, hp, h1, h2⟩
          · refine .inl ⟨(b.nodes m).2 (.inr ⟨i, hi, ?_⟩), h⟩
            cases i with
            | node n ls d => exact hg.1
            | _ => exact absurd hg (by simp [Instr.GivesLayer])
          · exact .inr ⟨r, mem_rows.1 hr, p, hp, h1, h2⟩
        · rw [hst]
          exact .inl ⟨(b.nodes m).2 (.inr (implicit_mention h)), rfl⟩
      · rintro (⟨hm, rfl⟩ | ⟨r, hr, p, hp, rfl, rfl⟩)
        · rcases (b.nodes m).1 hm with h | h
          · exact .inl ((f4 _ _).2 ⟨(f2 m).1 h, rfl⟩)
          · by_cases hmr : m = text.node
            · exact .inl ((f4 _ _).2 ⟨hmr, rfl⟩)
            · rcases nsFirst_layer nf hmr h with h | h
              · exact .inr (.inl h)
              · exact .inr (.inr ⟨fun h' => hmr ((f2 m).1 h'), h, by rw [hst]⟩)
        · obtain ⟨i, hi, hg⟩ := gives_iff.2 ((exp_layers (o := o) (ns := ns) (root := text.node) (hok.rows r hr)).1 p hp)
          exact .inr (.inl ⟨i, List.mem_flatMap.2 ⟨r, mem_rows.2 hr, hi⟩, hg⟩)
    rw [b'.layer, hl0, hnodes']
    constructor
    · rintro (h | ⟨i, hi, hg⟩ | ⟨h1, h2, _⟩)
      · exact h
      · obtain ⟨e, _, rfl⟩ := List.mem_map.1 hi
        exact absurd hg (by simp [Instr.GivesLayer])
      · exact absurd (hnew m (implicit_mention h2)) h1
    · exact .inl
  · intro m k hk
    rw [b'.attr m k hk, lastWrite_edges, Option.none_or, b.attr m k hk, rows_writes hok, show (expStart name ns text).nodeAttr m k = _ from f3 m k hk]
    rfl

end DG
end Dg
