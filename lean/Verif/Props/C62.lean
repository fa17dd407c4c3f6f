import Verif.Lemmas.MmaxWhole
import Batteries.Lean.Except

/-! **C62** Reading an MMAX2 project. -/

namespace Dg
open Dict
namespace DG

variable {ns : String} {doc : MmaxDoc} {precedence connected ignore : Bool}

/-- **C62 (content)**.  Whatever the order in which Python looks at the levels of annotation, reading an MMAX2 project succeeds, and the graph has the words as tokens, a node for each markable with all of its attributes, a spanning edge from each markable to each of its tokens that exist and a pointing edge to each of its antecedents (whether they exist or not), and the sentences, sorted by their first tokens.  Words, sentences and the root have exactly the expected layers; markables, missing antecedents and edges of markables have the expected layers, but maybe more: only levels named by antecedents, and levels from which a node is pointed at (`ExtraLayer`).  Partial: one would expect that a markable has no other layers than those of its level (see c62_exact for when this is the case, and c62_fails_leak, c62_fails_order for when it is not). -/
theorem c62_content_partial {p : MmaxProject} (hd : doc.Ok ns ignore) (hp : p.Has ignore doc) (name : Option String) {order : List String} (ho : order.Perm (doc.levels.map Prod.fst))
    (hname : ignore = true → ∀ n, name = some n → n = "" ∨ mmaxFileId n = mmaxFileId p.base) (h2 : precedence = true → 2 ≤ doc.words.length) :
    ∃ g, mmaxRead name ns precedence connected ignore p order = .ok g ∧ MmaxContent ns precedence connected ignore doc g := by
  obtain ⟨_, _, g', e, _, _, h, _⟩ := mmaxRead_content (connected := connected) hd hp name ho hname h2
  exact ⟨g', e, h⟩

/-- **C62 (exact layers)**.  If no antecedent names a level, the edges are exactly those of the tokens and the markables, with exactly the layers of their levels; and a markable that is not an antecedent of a markable of another level has exactly the layers of its level. -/
theorem c62_exact {p : MmaxProject} (hd : doc.Ok ns ignore) (hp : p.Has ignore doc) (name : Option String) {order : List String} (ho : order.Perm (doc.levels.map Prod.fst))
    (hname : ignore = true → ∀ n, name = some n → n = "" ∨ mmaxFileId n = mmaxFileId p.base) (h2 : precedence = true → 2 ≤ doc.words.length)
    (hplain : ∀ x ∈ doc.marks, ∀ a ∈ x.2.antes, a.1 = none) :
    ∃ g, mmaxRead name ns precedence connected ignore p order = .ok g ∧
      EdgesAre g (wordEdges ns precedence connected doc ++ doc.marks.flatMap (markEdges ns doc)) ∧
      ∀ x ∈ doc.marks, (∀ y ∈ doc.marks, ∀ a ∈ y.2.antes, a.2 = x.2.id → y.1 = x.1) → ∀ l, g.NodeLayer x.2.node l ↔ l ∈ (levelLayers ns x.1).map Atom.str := by
  obtain ⟨g, e, h⟩ := c62_content_partial (connected := connected) hd hp name ho hname h2
  have hni : ∀ l a, ¬ NamedIn ns doc l a := by
    rintro l _ ⟨m, hm, a, ha, b, hb, _⟩
    rw [hplain _ hm a ha] at hb; cases hb
  have hne : ∀ n l, ¬ ExtraEdgeLayer ns doc n l := by
    rintro n l ⟨x, hx, _, h⟩
    exact hni _ _ h
  refine ⟨g, e, ⟨?_, ?_, h.edges.count⟩, ?_⟩
  · intro u v a he
    obtain ⟨s, hs, h1, h2, h3, h4, h5⟩ := h.edges.sound u v a he
    refine ⟨s, hs, h1, h2, h3, fun l => ⟨fun hl => (h5 l hl).resolve_right (hne u l), fun hl => ?_⟩⟩
    obtain ⟨q, hq, rfl⟩ := List.mem_map.1 hl
    exact h4 q hq
  · intro s hs
    obtain ⟨a, h1, h3, h4, h5⟩ := h.edges.complete s hs
    refine ⟨a, h1, h3, fun l => ⟨fun hl => (h5 l hl).resolve_right (hne _ l), fun hl => ?_⟩⟩
    obtain ⟨q, hq, rfl⟩ := List.mem_map.1 hl
    exact h4 q hq
  · intro x hx hy l
    obtain ⟨h1, h2⟩ := h.markLayer x hx
    constructor
    · intro hl
      rcases h2 l hl with h | ⟨y, hym, e, h⟩ | ⟨y, hym, a, ha, e, _, h | h⟩
      · exact h
      · exact (hni _ _ h).elim
      · injection e with e
        rw [h, hy y hym a ha e.symm]
        simp [levelLayers]
      · exact (hni _ _ h).elim
    · intro hl
      obtain ⟨q, hq, rfl⟩ := List.mem_map.1 hl
      exact h1 q hq

theorem splitChars_append (c : Char) (a b : List Char) : splitChars c (a ++ c :: b) = splitChars c a ++ splitChars c b := by
  induction a with
  | nil => simp [splitChars]
  | cons x a ih =>
    rw [List.cons_append, splitChars, splitChars, ih]
    split
    · rfl
    · cases h : splitChars c a with
      | nil => exact absurd h (splitChars_ne_nil c a)
      | cons p ps => rfl

/-- **C62 (names of files)**.  The files of the document `some/directory/document.mmax` are looked up with `document`, whatever the directory. -/
theorem c62_file_id (dir file : List Char) (h : '/' ∉ file) : mmaxFileId (String.ofList (dir ++ '/' :: (file ++ ['.', 'm', 'm', 'a', 'x']))) = String.ofList file ∧ mmaxFileId (String.ofList (file ++ ['.', 'm', 'm', 'a', 'x'])) = String.ofList file := by
  have hb : '/' ∉ file ++ ['.', 'm', 'm', 'a', 'x'] := by simp [h]
  have key : ∀ cs : List Char, baseName cs = file ++ ['.', 'm', 'm', 'a', 'x'] → mmaxFileId (String.ofList cs) = String.ofList file := by
    intro cs hc
    unfold mmaxFileId
    rw [String.toList_ofList, hc]
    simp
  refine ⟨key _ ?_, key _ ?_⟩
  · unfold baseName
    rw [splitChars_append, splitChars_no_sep _ _ hb, List.getLast?_append]
    rfl
  · unfold baseName
    rw [splitChars_no_sep _ _ hb]; rfl

/-- **C62 (sentence level)**.  If sentences are to be kept apart, but the project has no level of sentences, reading fails with a KeyError. -/
theorem c62_no_sentence_level {p : MmaxProject} (hm : ∀ x ∈ doc.marks, x.2.Ok) (hstray : ∀ x ∈ doc.marks, ∀ i ∈ x.2.ids, i ∈ doc.wordIds ∨ (i ∉ doc.markIds ++ doc.anteIds ∧ i ≠ qual ns "root_node"))
    (hw : p.words = doc.words.map (fun w => ⟨w.1, some w.2⟩)) (hf : ∀ x ∈ doc.levels, p.file (mmaxFileId p.base) x.1 = some (x.2.map Markable.attrs)) (name : Option String) {order : List String} (ho : order.Perm (doc.levels.map Prod.fst))
    (h2 : precedence = true → 2 ≤ doc.words.length) (hs : "sentence" ∉ p.levels) : mmaxRead name ns precedence connected true p order = .error .key := by
  obtain ⟨lv, hlv, rfl⟩ := perm_map_lift ho
  obtain ⟨g, g', e, b, u, f⟩ := mmaxBase_eq hm hstray hw hf (mmaxName name p) precedence connected h2 hlv
  rw [mmaxRead_steps, f]
  show (mmaxSentences p true g' >>= _) = _
  unfold mmaxSentences
  rw [if_pos rfl, if_neg hs]
  rfl

/-- **C62 (name of the document)**.  If sentences are to be kept apart, the file of sentences is looked up by the name given to the graph, not by the name of the base file: with a name that does not lead to such a file, reading fails with an IOError. -/
theorem c62_other_name {p : MmaxProject} (hm : ∀ x ∈ doc.marks, x.2.Ok) (hstray : ∀ x ∈ doc.marks, ∀ i ∈ x.2.ids, i ∈ doc.wordIds ∨ (i ∉ doc.markIds ++ doc.anteIds ∧ i ≠ qual ns "root_node"))
    (hw : p.words = doc.words.map (fun w => ⟨w.1, some w.2⟩)) (hf : ∀ x ∈ doc.levels, p.file (mmaxFileId p.base) x.1 = some (x.2.map Markable.attrs)) {name : String} (hne : name ≠ "") {order : List String} (ho : order.Perm (doc.levels.map Prod.fst))
    (h2 : precedence = true → 2 ≤ doc.words.length) (hs : "sentence" ∈ p.levels) (hfile : p.file (mmaxFileId name) "sentence" = none) : mmaxRead (some name) ns precedence connected true p order = .error .io := by
  obtain ⟨lv, hlv, rfl⟩ := perm_map_lift ho
  obtain ⟨g, g', e, b, u, f⟩ := mmaxBase_eq hm hstray hw hf (mmaxName (some name) p) precedence connected h2 hlv
  have hn : g'.name = name := by
    rw [u.name, b.name]
    show mmaxName (some name) p = name
    unfold mmaxName
    simp [hne]
  rw [mmaxRead_steps, f]
  show (mmaxSentences p true g' >>= _) = _
  unfold mmaxSentences
  rw [if_pos rfl, if_pos hs, hn, hfile]
  rfl

/-- **C62 (missing file)**.  Reading fails with an AssertionError if there is no file for a level, whatever comes after this level. -/
theorem c62_missing_file {p : MmaxProject} (hm : ∀ x ∈ doc.marks, x.2.Ok) (hstray : ∀ x ∈ doc.marks, ∀ i ∈ x.2.ids, i ∈ doc.wordIds ∨ (i ∉ doc.markIds ++ doc.anteIds ∧ i ≠ qual ns "root_node"))
    (hw : p.words = doc.words.map (fun w => ⟨w.1, some w.2⟩)) (hf : ∀ x ∈ doc.levels, p.file (mmaxFileId p.base) x.1 = some (x.2.map Markable.attrs)) (name : Option String) {level : String} {before after : List String} (ho : before.Perm (doc.levels.map Prod.fst))
    (h2 : precedence = true → 2 ≤ doc.words.length) (hfile : p.file (mmaxFileId p.base) level = none) : mmaxRead name ns precedence connected ignore p (before ++ level :: after) = .error .assertion := by
  obtain ⟨lv, hlv, rfl⟩ := perm_map_lift ho
  obtain ⟨g, g', e, b, u, f⟩ := mmaxBase_eq hm hstray hw hf (mmaxName name p) precedence connected h2 hlv
  have key : ∀ (C : Except PyErr DG) (K : DG → Except PyErr DG), (C >>= fun g2 => (lv.map Prod.fst).foldlM (fun g level => g.mmaxAddLevel level (p.file (mmaxFileId p.base) level)) g2) = .ok g' →
      ((C >>= fun g2 => (lv.map Prod.fst ++ level :: after).foldlM (fun g level => g.mmaxAddLevel level (p.file (mmaxFileId p.base) level)) g2) >>= K) = .error .assertion := by
    intro C K h
    cases C with
    | error x => cases h
    | ok c =>
      have h : List.foldlM _ c _ = Except.ok g' := h
      show ((List.foldlM _ c _ : Except PyErr DG) >>= K) = _
      rw [List.foldlM_append, h]
      show ((List.foldlM _ g' _ : Except PyErr DG) >>= K) = _
      rw [List.foldlM_cons, hfile]
      rfl
  rw [mmaxRead_steps]
  exact key _ _ f

/-! ### an example -/

/-- a markable with a span and an attribute for its antecedents -/
def c62Mark (i span : String) (ids : List String) (ptr : String) (antes : List (Option String × String)) : Markable := ⟨[("id", i), ("span", span), ("anaphor_antecedent", ptr)], ids, antes⟩

/-- four words; a level of coreference with three markables, one of them with two antecedents (one is missing), and a span with a missing word; another level; two sentences (in the wrong order) -/
def c62Doc (ignore : Bool) : MmaxDoc where
  words := [("word_1", "Ann"), ("word_2", "sleeps"), ("word_3", "She"), ("word_4", "dreams")]
  levels := [("coref", [c62Mark "m1" "word_1" ["word_1"] "empty" [], c62Mark "m2" "word_3" ["word_3"] "m1;m9" [(none, "m1"), (none, "m9")]]), ("chunk", [c62Mark "c1" "word_1..word_2,word_7" ["word_1", "word_2", "word_7"] "empty" []])] ++
    if ignore then [] else [("sentence", [c62Mark "s2" "word_3..word_4" ["word_3", "word_4"] "empty" [], c62Mark "s1" "word_1..word_2" ["word_1", "word_2"] "empty" []])]
  sents := [c62Mark "s2" "word_3..word_4" ["word_3", "word_4"] "empty" [], c62Mark "s1" "word_1..word_2" ["word_1", "word_2"] "empty" []]

/-- the project -/
def c62Project (ignore : Bool) : MmaxProject where
  base := "corpus/doc.mmax"
  words := (c62Doc ignore).words.map (fun w => ⟨w.1, some w.2⟩)
  levels := ["coref", "chunk", "sentence"]
  file := fun i l => if i = "doc" then (Dict.find ((c62Doc false).levels.map (fun x => (x.1, x.2.map Markable.attrs))) l) else none

/-- the conditions on a markable, checked -/
def markOkB (m : Markable) : Bool :=
  decide ("id" ∈ keys m.attrs) && decide ("span" ∈ keys m.attrs) && decide (convertSpanstring (xval m.attrs "span") = .ok m.ids) && decide (keys m.attrs).Nodup &&
  (if m.antes = [] then decide (find m.attrs "anaphor_antecedent" = none ∨ find m.attrs "anaphor_antecedent" = some "empty")
   else match find m.attrs "anaphor_antecedent" with
    | some s => decide (s ≠ "empty") && decide (s.toList = joinChars [';'] (m.antes.map Markable.anteText))
    | none => false) &&
  m.antes.all (fun a => [':', ';'].all (fun c => decide (c ∉ a.2.toList) && match a.1 with
    | some l => decide (c ∉ l.toList)
    | none => true))

theorem markOk_of {m : Markable} (h : markOkB m = true) : m.Ok := by
  unfold markOkB at h
  simp only [Bool.and_eq_true, decide_eq_true_eq] at h
  obtain ⟨⟨⟨⟨⟨h1, h2⟩, h3⟩, h4⟩, h5⟩, h6⟩ := h
  refine ⟨⟨h1, h2, h3⟩, h4, ?_, ?_, ?_⟩
  · intro he
    rw [if_pos he] at h5
    simpa using h5
  · intro he
    rw [if_neg he] at h5
    cases hf : find m.attrs "anaphor_antecedent" with
    | none => rw [hf] at h5; cases h5
    | some s =>
      rw [hf] at h5
      simp only [Bool.and_eq_true, decide_eq_true_eq] at h5
      exact ⟨s, rfl, h5⟩
  · intro a ha c hc
    rw [List.all_eq_true] at h6
    have := h6 a ha
    rw [List.all_eq_true] at this
    have := this c hc
    rw [Bool.and_eq_true] at this
    refine ⟨by simpa using this.1, ?_⟩
    intro l hl
    rw [hl] at this
    simpa using this.2

/-- the conditions on a document, checked -/
def docOkB (ns : String) (ignore : Bool) (doc : MmaxDoc) : Bool :=
  decide (doc.levels.map Prod.fst).Nodup && doc.marks.all (fun x => markOkB x.2) && (!ignore || doc.sents.all markOkB) && decide (doc.wordIds ++ doc.markIds ++ doc.sentIds ignore).Nodup &&
  decide (qual ns "root_node" ∉ doc.wordIds ++ doc.markIds ++ doc.sentIds ignore) &&
  (doc.marks.map Prod.snd ++ doc.sentences ignore).all (fun m => m.ids.all (fun i => decide (i ∈ doc.wordIds ∨ (i ∉ doc.markIds ++ doc.anteIds ++ doc.sentIds ignore ∧ i ≠ qual ns "root_node")))) &&
  !(doc.sentences ignore).isEmpty && (doc.sentences ignore).all (fun m => decide (doc.toks m ≠ [])) && (doc.sentIds ignore).all (fun i => decide (i ∉ doc.anteIds)) &&
  (ignore || doc.marks.all (fun x => decide (x.1 = "sentence" → x.2.antes = []) && x.2.antes.all (fun a => decide (a.1 ≠ some "sentence"))))

theorem docOk_of {ns : String} {ignore : Bool} {doc : MmaxDoc} (h : docOkB ns ignore doc = true) : doc.Ok ns ignore := by
  unfold docOkB at h
  simp only [Bool.and_eq_true, decide_eq_true_eq, List.all_eq_true, Bool.or_eq_true, Bool.not_eq_true'] at h
  obtain ⟨⟨⟨⟨⟨⟨⟨⟨⟨h1, h2⟩, h3⟩, h4⟩, h5⟩, h6⟩, h7⟩, h8⟩, h9⟩, h10⟩ := h
  refine ⟨h1, fun x hx => markOk_of (h2 x hx), ?_, h4, h5, ?_, ?_, h8, h9, ?_⟩
  · intro hi m hm
    rcases h3 with h3 | h3
    · rw [hi] at h3; cases h3
    · exact (markOk_of (h3 m hm)).toSpans
  · rintro m (⟨l, hl⟩ | hm)
    · exact h6 m (List.mem_append_left _ (List.mem_map.2 ⟨_, hl, rfl⟩))
    · exact h6 m (List.mem_append_right _ hm)
  · intro he
    rw [he] at h7; cases h7
  · intro hi x hx
    rcases h10 with h10 | h10
    · rw [hi] at h10; cases h10
    · exact h10 x hx

theorem c62Doc_ok (ignore : Bool) : (c62Doc ignore).Ok "mmax" ignore := by cases ignore <;> exact docOk_of (by decide +kernel)

theorem c62Project_has (ignore : Bool) : (c62Project ignore).Has ignore (c62Doc ignore) := by
  cases ignore <;> exact ⟨rfl, by decide +kernel, by decide +kernel, by decide +kernel⟩

/-- the conditions of c62_content_partial and c62_exact are met -/
example (ignore : Bool) : ∃ g, mmaxRead none "mmax" true false ignore (c62Project ignore) ((c62Doc ignore).levels.map Prod.fst).reverse = .ok g ∧ MmaxContent "mmax" true false ignore (c62Doc ignore) g :=
  c62_content_partial (c62Doc_ok ignore) (c62Project_has ignore) none (List.reverse_perm _) (by intro _ n h; cases h) (by intro _; cases ignore <;> decide)

example (ignore : Bool) : ∀ x ∈ (c62Doc ignore).marks, ∀ a ∈ x.2.antes, a.1 = none := by cases ignore <;> decide +kernel

/-- the sentences of the example, sorted -/
example : ((mmaxRead none "mmax" false true true (c62Project true) ["chunk", "coref"]).toOption.map (·.sentences)) = some [.str "s1", .str "s2"] := by decide +kernel

/-- the same project without a level of sentences -/
def c62NoLevel : MmaxProject := { c62Project true with levels := ["coref", "chunk"] }

theorem c62NoLevel_files : ∀ x ∈ (c62Doc true).levels, c62NoLevel.file (mmaxFileId c62NoLevel.base) x.1 = some (x.2.map Markable.attrs) := by decide +kernel

/-- the conditions of c62_no_sentence_level, c62_other_name and c62_missing_file are met -/
example : mmaxRead none "mmax" true false true c62NoLevel ["chunk", "coref"] = .error .key :=
  c62_no_sentence_level (doc := c62Doc true) (c62Doc_ok true).marks (c62Doc_ok true).stray_marks rfl c62NoLevel_files none (by decide) (by intro _; decide) (by decide)

example : mmaxRead (some "my name") "mmax" true false true (c62Project true) ["chunk", "coref"] = .error .io :=
  c62_other_name (doc := c62Doc true) (c62Doc_ok true).marks (c62Doc_ok true).stray_marks rfl (c62Project_has true).files (by decide) (by decide) (by intro _; decide) (by decide) (by decide +kernel)

example : mmaxRead none "mmax" true false true (c62Project true) (["chunk", "coref"] ++ ["other", "sentence"]) = .error .assertion :=
  c62_missing_file (doc := c62Doc true) (c62Doc_ok true).marks (c62Doc_ok true).stray_marks rfl (c62Project_has true).files none (by decide) (by intro _; decide) (by decide +kernel)

/-! ### what fails -/

/-- a project with two markables of one level: the second one names its antecedent with a level -/
def c62Leak : MmaxProject where
  base := "doc.mmax"
  words := [⟨"word_1", some "Ann"⟩, ⟨"word_2", some "she"⟩, ⟨"word_3", some "it"⟩]
  levels := ["coref", "sentence"]
  file := fun _ l => Dict.find [("coref", [[("id", "m0"), ("span", "word_3")], [("id", "m1"), ("span", "word_1")], [("id", "m2"), ("span", "word_2"), ("anaphor_antecedent", "group:m1")]]), ("sentence", [[("id", "s1"), ("span", "word_1..word_3")]])] l

/-- the layers of a node -/
def layersOf (r : Except PyErr DG) (n : String) : Option Val := r.toOption.bind (fun g => g.nodeAttr (.str n) "layers")

/-- **C62 (fails)**.  An antecedent given with its level adds this level to the layers of all markables of the file: also to those before it that have nothing to do with it. -/
theorem c62_fails_leak : layersOf (mmaxRead none "mmax" false false true c62Leak ["coref"]) "m0" = some (.set [.str "mmax", .str "mmax:markable", .str "mmax:coref", .str "mmax:group"]) := by decide +kernel

/-- **C62 (fails)**.  In the label of an edge to an antecedent given with its level, there is no colon between the namespace and the level (unlike in all other labels). -/
theorem c62_fails_label : (mmaxRead none "mmax" false false true c62Leak ["coref"]).toOption.map (fun g => (g.edges.filter (fun e => decide (e.2.1 = .str "m1"))).map (fun e => Dict.find e.2.2.2 "label")) = some [some (.atom (.str "mmaxgroup:antecedent"))] := by decide +kernel

/-- two levels: a markable of one of them is the antecedent of a markable of the other one -/
def c62Order : MmaxProject where
  base := "doc.mmax"
  words := [⟨"word_1", some "Ann"⟩, ⟨"word_2", some "she"⟩]
  levels := ["a", "b", "sentence"]
  file := fun _ l => Dict.find [("a", [[("id", "m1"), ("span", "word_1")]]), ("b", [[("id", "m2"), ("span", "word_2"), ("anaphor_antecedent", "m1")]]), ("sentence", [[("id", "s1"), ("span", "word_1..word_2")]])] l

/-- **C62 (fails)**.  The layers of an antecedent in another level depend on the order in which Python looks at the levels (the order of a set). -/
theorem c62_fails_order : layersOf (mmaxRead none "mmax" false false true c62Order ["a", "b"]) "m1" = some (.set [.str "mmax", .str "mmax:markable", .str "mmax:a"]) ∧
    layersOf (mmaxRead none "mmax" false false true c62Order ["b", "a"]) "m1" = some (.set [.str "mmax", .str "mmax:markable", .str "mmax:b", .str "mmax:a"]) := by decide +kernel

/-- **C62 (fails)**.  A project without sentences cannot be read (ValueError), and neither can one that has a sentence without existing words (IndexError). -/
theorem c62_fails_sentences : mmaxRead none "mmax" false false true { c62Order with file := fun _ l => if l = "sentence" then some [] else some [] } ["a", "b"] = .error .value ∧
    mmaxRead none "mmax" false false true { c62Order with file := fun _ l => if l = "sentence" then some [[("id", "s1"), ("span", "word_9")]] else some [] } ["a", "b"] = .error .index := by
  constructor <;> rfl

end DG
end Dg
