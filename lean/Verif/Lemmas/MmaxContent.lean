import Verif.Lemmas.MmaxFacts

/-! The content of a graph built by the calls of the MMAX2 reader. -/

namespace Dg
open Dict
namespace DG

variable {ns : String} {doc : MmaxDoc} {precedence connected ignore : Bool} {lv : List (String × List Markable)}

/-! ### IDs -/

theorem mem_wordIds {w : String × String} (h : w ∈ doc.words) : w.1 ∈ doc.wordIds := List.mem_map.2 ⟨w, h, rfl⟩

theorem mem_markIds {x : String × Markable} (h : x ∈ doc.marks) : x.2.id ∈ doc.markIds := List.mem_map.2 ⟨x, h, rfl⟩

theorem mem_anteIds {x : String × Markable} (h : x ∈ doc.marks) {a : Option String × String} (ha : a ∈ x.2.antes) : a.2 ∈ doc.anteIds := List.mem_flatMap.2 ⟨x, h, List.mem_map.2 ⟨a, ha, rfl⟩⟩

theorem mem_sentIds (hi : ignore = true) {m : Markable} (h : m ∈ doc.sents) : m.id ∈ doc.sentIds ignore := by
  unfold MmaxDoc.sentIds; rw [if_pos hi]; exact List.mem_map.2 ⟨m, h, rfl⟩

theorem ids_split (hd : doc.Ok ns ignore) : doc.wordIds.Nodup ∧ doc.markIds.Nodup ∧ (doc.sentIds ignore).Nodup ∧ (∀ i ∈ doc.wordIds, i ∉ doc.markIds) ∧ (∀ i ∈ doc.wordIds, i ∉ doc.sentIds ignore) ∧ ∀ i ∈ doc.markIds, i ∉ doc.sentIds ignore := by
  have h := hd.ids
  rw [List.nodup_append', List.nodup_append'] at h
  obtain ⟨⟨h1, h2, h3⟩, h4, h5⟩ := h
  exact ⟨h1, h2, h4, fun i hi hm => h3 hi hm, fun i hi hm => h5 (List.mem_append_left _ hi) hm, fun i hi hm => h5 (List.mem_append_right _ hi) hm⟩

theorem root_not (hd : doc.Ok ns ignore) : qual ns "root_node" ∉ doc.wordIds ∧ qual ns "root_node" ∉ doc.markIds ∧ qual ns "root_node" ∉ doc.sentIds ignore := by
  have h := hd.root
  simp only [List.mem_append, not_or] at h
  exact ⟨h.1.1, h.1.2, h.2⟩

theorem ante_not_root (hd : doc.Ok ns ignore) {x : String × Markable} (h : x ∈ doc.marks) {a : Option String × String} (ha : a ∈ x.2.antes) : a.2 ≠ qual ns "root_node" := by
  intro e
  have := ((hd.marks x h).chars a ha ':' (by simp)).1
  rw [e] at this
  apply this
  unfold qual
  simp

theorem mark_inj (hd : doc.Ok ns ignore) {x y : String × Markable} (hx : x ∈ doc.marks) (hy : y ∈ doc.marks) (h : x.2.id = y.2.id) : x = y :=
  List.inj_on_of_nodup_map (ids_split hd).2.1 hx hy h

theorem word_inj (hd : doc.Ok ns ignore) {x y : String × String} (hx : x ∈ doc.words) (hy : y ∈ doc.words) (h : x.1 = y.1) : x = y :=
  List.inj_on_of_nodup_map (ids_split hd).1 hx hy h

theorem mem_sentences_mark (hi : ignore = false) {m : Markable} : m ∈ doc.sentences ignore ↔ ("sentence", m) ∈ doc.marks := by
  unfold MmaxDoc.sentences
  rw [if_neg (by simp [hi])]
  constructor
  · intro h
    obtain ⟨x, hx, rfl⟩ := List.mem_map.1 h
    obtain ⟨h1, h2⟩ := List.mem_filter.1 hx
    rw [← show x.1 = "sentence" by simpa using h2]
    exact h1
  · intro h
    exact List.mem_map.2 ⟨("sentence", m), List.mem_filter.2 ⟨h, by simp⟩, rfl⟩

theorem sentences_nodup (hd : doc.Ok ns ignore) : ((doc.sentences ignore).map Markable.id).Nodup := by
  cases ignore with
  | true => exact (ids_split hd).2.2.1
  | false =>
    unfold MmaxDoc.sentences
    rw [if_neg (by simp), List.map_map]
    exact ((ids_split hd).2.1).sublist (List.filter_sublist.map _)

theorem sentence_inj (hd : doc.Ok ns ignore) {x y : Markable} (hx : x ∈ doc.sentences ignore) (hy : y ∈ doc.sentences ignore) (h : x.id = y.id) : x = y :=
  List.inj_on_of_nodup_map (sentences_nodup hd) hx hy h

/-- the ID of a sentence is no word and not the root -/
theorem sentence_id (hd : doc.Ok ns ignore) {m : Markable} (hm : m ∈ doc.sentences ignore) : m.id ∉ doc.wordIds ∧ m.id ≠ qual ns "root_node" := by
  obtain ⟨h1, h2, h3, h4, h5, h6⟩ := ids_split hd
  obtain ⟨r1, r2, r3⟩ := root_not hd
  cases hi : ignore with
  | true =>
    subst hi
    have : m.id ∈ doc.sentIds true := mem_sentIds rfl hm
    exact ⟨fun h => h5 _ h this, fun e => r3 (e ▸ this)⟩
  | false =>
    subst hi
    have := mem_markIds ((mem_sentences_mark rfl).1 hm)
    exact ⟨fun h => h4 _ h this, fun e => r2 (e ▸ this)⟩

/-! ### the calls for a node -/

theorem call_word (hd : doc.Ok ns ignore) {w : String × String} (hw : w ∈ doc.words) {ls : List String} {d : Attrs} (h : NodeCall ns ignore doc (.str w.1) ls d) : ls = [ns, qual ns "token"] ∧ d = wordDict ns w := by
  obtain ⟨h1, h2, h3, h4, h5, h6⟩ := ids_split hd
  obtain ⟨r1, r2, r3⟩ := root_not hd
  have hwi := mem_wordIds hw
  rcases h with ⟨e, _⟩ | ⟨w', hw', e, rfl, rfl⟩ | ⟨x, hx, e, _⟩ | ⟨x, hx, a, ha, hna, e, _⟩ | ⟨hi, m, hm, e, _⟩ <;> injection e with e
  · exact absurd (e ▸ hwi) r1
  · rw [word_inj hd hw hw' e]; exact ⟨rfl, rfl⟩
  · exact absurd (e ▸ mem_markIds hx) (h4 _ hwi)
  · exact absurd (e ▸ hwi) hna
  · exact absurd (e ▸ mem_sentIds hi hm) (h5 _ hwi)

theorem call_mark (hd : doc.Ok ns ignore) {x : String × Markable} (hx : x ∈ doc.marks) {ls : List String} {d : Attrs} (h : NodeCall ns ignore doc x.2.node ls d) : (ls = levelLayers ns x.1 ∧ d = markDict ns x) ∨ (ls = [ns, qual ns "markable"] ∧ d = []) := by
  obtain ⟨h1, h2, h3, h4, h5, h6⟩ := ids_split hd
  obtain ⟨r1, r2, r3⟩ := root_not hd
  have hxi := mem_markIds hx
  rcases h with ⟨e, _⟩ | ⟨w', hw', e, _⟩ | ⟨y, hy, e, rfl, rfl⟩ | ⟨y, hy, a, ha, hna, e, rfl, rfl⟩ | ⟨hi, m, hm, e, _⟩ <;> injection e with e
  · exact absurd (e ▸ hxi) r2
  · exact absurd hxi (h4 _ (e ▸ mem_wordIds hw'))
  · rw [mark_inj hd hx hy e]; exact .inl ⟨rfl, rfl⟩
  · exact .inr ⟨rfl, rfl⟩
  · exact absurd (e ▸ mem_sentIds hi hm) (h6 _ hxi)

theorem call_missing (hd : doc.Ok ns ignore) {i : String} (hi : i ∈ doc.anteIds) (hw : i ∉ doc.wordIds) (hm : i ∉ doc.markIds) {ls : List String} {d : Attrs} (h : NodeCall ns ignore doc (.str i) ls d) : ls = [ns, qual ns "markable"] ∧ d = [] := by
  obtain ⟨z, hz, hzi⟩ := List.mem_flatMap.1 hi
  obtain ⟨b, hb, rfl⟩ := List.mem_map.1 hzi
  rcases h with ⟨e, _⟩ | ⟨w', hw', e, _⟩ | ⟨y, hy, e, rfl, rfl⟩ | ⟨y, hy, a, ha, hna, e, rfl, rfl⟩ | ⟨hi', m, hm', e, _⟩ <;> injection e with e
  · exact absurd e (ante_not_root hd hz hb)
  · exact absurd (e ▸ mem_wordIds hw') hw
  · exact absurd (e ▸ mem_markIds hy) hm
  · exact ⟨rfl, rfl⟩
  · exact absurd hi (hd.apart _ (e ▸ mem_sentIds hi' hm'))

theorem call_sentence (hd : doc.Ok ns ignore) (hi : ignore = true) {m : Markable} (hm : m ∈ doc.sents) {ls : List String} {d : Attrs} (h : NodeCall ns ignore doc m.node ls d) : ls = [ns, qual ns "sentence"] ∧ d = [] := by
  obtain ⟨h1, h2, h3, h4, h5, h6⟩ := ids_split hd
  obtain ⟨r1, r2, r3⟩ := root_not hd
  have hmi := mem_sentIds hi hm
  rcases h with ⟨e, _⟩ | ⟨w', hw', e, _⟩ | ⟨y, hy, e, rfl, rfl⟩ | ⟨y, hy, a, ha, hna, e, rfl, rfl⟩ | ⟨hi', m', hm', e, rfl, rfl⟩ <;> injection e with e
  · exact absurd (e ▸ hmi) r3
  · exact absurd hmi (h5 _ (e ▸ mem_wordIds hw'))
  · exact absurd hmi (h6 _ (e ▸ mem_markIds hy))
  · exact absurd (mem_anteIds hy ha) (hd.apart _ (e ▸ hmi))
  · exact ⟨rfl, rfl⟩

theorem call_root (hd : doc.Ok ns ignore) {ls : List String} {d : Attrs} (h : NodeCall ns ignore doc (docRoot ns) ls d) : ls = [ns] ∧ d = [] := by
  obtain ⟨r1, r2, r3⟩ := root_not hd
  rcases h with ⟨e, rfl, rfl⟩ | ⟨w', hw', e, _⟩ | ⟨y, hy, e, rfl, rfl⟩ | ⟨y, hy, a, ha, hna, e, rfl, rfl⟩ | ⟨hi', m', hm', e, rfl, rfl⟩
  · exact ⟨rfl, rfl⟩
  all_goals injection e with e
  · exact absurd (e ▸ mem_wordIds hw') r1
  · exact absurd (e ▸ mem_markIds hy) r2
  · exact absurd e.symm (ante_not_root hd hy ha)
  · exact absurd (e ▸ mem_sentIds hi' hm') r3

/-! ### the sentences -/

theorem final_write {ss : List Markable} (hss : ∀ x ∈ ss, ∀ y ∈ ss, x.id = y.id → x = y) {m : Markable} (hm : m ∈ ss) : lastWrite m.node "tokens" (finalCalls doc ss) = some (idListVal (doc.toks m)) := by
  refine lastWrite_unique ⟨.attr m.node "tokens" (idListVal (doc.toks m)), List.mem_append_right _ (List.mem_map.2 ⟨m, hm, rfl⟩), by simp [Instr.write]⟩ ?_
  intro i hi v hv
  rcases List.mem_append.1 hi with hi | hi
  · obtain ⟨y, _, rfl⟩ := List.mem_map.1 hi; cases hv
  · obtain ⟨y, hy, rfl⟩ := List.mem_map.1 hi
    simp only [Instr.write] at hv
    split at hv
    · rename_i e
      have e1 : m.id = y.id := by
        have := e.1
        simp only [Markable.node] at this
        injection this
      rw [hss m hm y hy e1]
      exact (Option.some.inj hv).symm
    · cases hv

theorem final_write_none {ss : List Markable} {n : NodeId} {k : String} (h : k ≠ "tokens" ∨ ∀ m ∈ ss, n ≠ m.node) : lastWrite n k (finalCalls doc ss) = none := by
  apply lastWrite_none
  intro i hi
  rcases List.mem_append.1 hi with hi | hi
  · obtain ⟨y, _, rfl⟩ := List.mem_map.1 hi; rfl
  · obtain ⟨y, hy, rfl⟩ := List.mem_map.1 hi
    simp only [Instr.write]
    rw [if_neg]
    rintro ⟨e1, e2⟩
    rcases h with h | h
    · exact h e2
    · exact h y hy e1

theorem final_no_call {ss : List Markable} {i : Instr} (h : i ∈ finalCalls doc ss) : (∀ m, ¬ i.Mentions m) ∧ (∀ m l, ¬ i.GivesLayer m l) ∧ i.spec = none ∧ i.newTokens = [] := by
  rcases List.mem_append.1 h with hi | hi <;> obtain ⟨y, _, rfl⟩ := List.mem_map.1 hi <;> exact ⟨fun _ h => h, fun _ _ h => h, rfl, rfl⟩

theorem final_sentences (ss : List Markable) : (finalCalls doc ss).flatMap Instr.newSentences = ss.map Markable.node := by
  unfold finalCalls
  rw [List.flatMap_append, List.flatMap_map, List.flatMap_map]
  show ss.flatMap (fun m => [m.node]) ++ ss.flatMap (fun _ => []) = _
  rw [List.map_eq_flatMap]
  simp

theorem implicit_mention {m : NodeId} {s : List Instr} (h : Implicit m s) : ∃ i ∈ s, i.Mentions m := by
  induction s with
  | nil => exact h.elim
  | cons i s ih =>
    rcases h with ⟨h, _⟩ | ⟨_, h⟩
    · exact ⟨i, by simp, h⟩
    · obtain ⟨j, hj, h⟩ := ih h
      exact ⟨j, by simp [hj], h⟩

/-! ### the content -/

section
variable {name : String} {ss : List Markable} {g : DG}

/-- what is known about the graph built by the calls -/
structure MmaxView (ns : String) (precedence connected ignore : Bool) (doc : MmaxDoc) (lv : List (String × List Markable)) (ss : List Markable) (g : DG) : Prop where
  space : g.ns = ns
  layered : NodesLayered False g
  root : g.root = docRoot ns
  tokens : g.tokens = doc.tokens
  sentences : g.sentences = ss.map Markable.node
  nodes : ∀ m, g.HasNode m ↔ ∃ ls d, NodeCall ns ignore doc m ls d
  layer : ∀ m l, g.NodeLayer m l ↔ ∃ ls d, NodeCall ns ignore doc m ls d ∧ l ∈ ls.map Atom.str
  attr : ∀ m k, k ≠ "layers" → g.nodeAttr m k = (lastWrite m k (finalCalls doc ss)).or ((lastWrite m k (mmaxBody ns precedence connected ignore doc lv)).or (if m = docRoot ns ∧ k = "metadata" then some (.dict []) else none))
  edges : EdgesAre g (wordEdges ns precedence connected doc ++ doc.marks.flatMap (markEdges ns doc))

theorem mmaxView (hd : doc.Ok ns ignore) (hlv : lv.Perm doc.levels) (b : Built (mmaxStart name ns) (mmaxBody ns precedence connected ignore doc lv ++ finalCalls doc ss) g) : MmaxView ns precedence connected ignore doc lv ss g := by
  have hs := (sees_init name ns).built b
  have hroot : ∃ ls d, NodeCall ns ignore doc (docRoot ns) ls d := ⟨_, _, .inl ⟨rfl, rfl, rfl⟩⟩
  have hmen : ∀ m, (∃ i ∈ mmaxBody ns precedence connected ignore doc lv ++ finalCalls doc ss, i.Mentions m) ↔ ∃ ls d, NodeCall ns ignore doc m ls d := by
    intro m
    rw [← body_mentions hd hlv (precedence := precedence) (connected := connected)]
    constructor
    · rintro ⟨i, hi, h⟩
      rcases List.mem_append.1 hi with hi | hi
      · exact ⟨i, hi, h⟩
      · exact ((final_no_call hi).1 m h).elim
    · rintro ⟨i, hi, h⟩
      exact ⟨i, List.mem_append_left _ hi, h⟩
  refine ⟨hs.ns, b.layered, hs.root, ?_, ?_, ?_, ?_, ?_, ?_⟩
  · rw [hs.tokens]
    show [] ++ (_ ++ _ : List Instr).flatMap Instr.newTokens = _
    rw [List.nil_append, List.flatMap_append, body_tokens, List.flatMap_eq_nil_iff.2 (fun i hi => (final_no_call hi).2.2.2), List.append_nil]
  · rw [hs.sentences]
    show [] ++ (_ ++ _ : List Instr).flatMap Instr.newSentences = _
    rw [List.nil_append, List.flatMap_append, body_sentences, final_sentences, List.nil_append]
  · intro m
    rw [hs.nodes]
    show (m = docRoot ns ∨ _) ↔ _
    rw [hmen]
    constructor
    · rintro (rfl | h)
      · exact hroot
      · exact h
    · exact .inr
  · intro m l
    rw [hs.layer]
    show (m = docRoot ns ∧ l = .str ns) ∨ _ ∨ _ ↔ _
    constructor
    · rintro (⟨rfl, rfl⟩ | ⟨i, hi, h⟩ | ⟨_, h, rfl⟩)
      · exact ⟨_, _, .inl ⟨rfl, rfl, rfl⟩, by simp⟩
      · rcases List.mem_append.1 hi with hi | hi
        · cases i with
          | node n ls d =>
            obtain ⟨rfl, h2⟩ := h
            exact ⟨ls, d, (body_node hd hlv).1 hi, h2⟩
          | _ => exact h.elim
        · exact ((final_no_call hi).2.1 m l h).elim
      · obtain ⟨ls, d, h⟩ := (hmen m).1 (implicit_mention h)
        exact ⟨ls, d, h, List.mem_map.2 ⟨ns, h.layer, rfl⟩⟩
    · rintro ⟨ls, d, h, hl⟩
      exact .inr (.inl ⟨.node m ls d, List.mem_append_left _ ((body_node hd hlv).2 h), rfl, hl⟩)
  · intro m k hk
    rw [hs.attr m k hk]
    show (lastWrite m k (_ ++ _)).or _ = _
    rw [lastWrite_append, Option.or_assoc]
    rfl
  · have he := hs.edges
    have : ((View.new ns).run (mmaxBody ns precedence connected ignore doc lv ++ finalCalls doc ss)).edges = wordEdges ns precedence connected doc ++ (levelMarks lv).flatMap (markEdges ns doc) := by
      show [] ++ (_ ++ _ : List Instr).filterMap Instr.spec = _
      rw [List.nil_append, List.filterMap_append, body_edges, List.filterMap_eq_nil_iff.2 (fun i hi => (final_no_call hi).2.2.1), List.append_nil]
    rw [this] at he
    exact he.perm (List.Perm.append_left _ ((levelMarks_perm hlv).flatMap_right _))

theorem EdgesAre.within {Y X : NodeId → Atom → Prop} {g g' : DG} {es : List EdgeSpec} (h : EdgesAre g es) (u : Upto X Y g g') : EdgesWithin Y g' es := by
  refine ⟨?_, ?_, ?_⟩
  · intro s t a' he
    obtain ⟨a, he, r⟩ := u.edge' he
    obtain ⟨e, hmem, h1, h2, h3⟩ := h.sound s t a he
    refine ⟨e, hmem, h1, h2, ?_, ?_, ?_⟩
    · intro k hk
      rw [← r.1 k hk]; exact h3.1 k hk
    · intro l hl
      exact r.layer ((h3.2 _).2 (List.mem_map.2 ⟨l, hl, rfl⟩))
    · intro l hl
      exact (r.layer' hl).imp (h3.2 l).1 id
  · intro e hmem
    obtain ⟨a, he, h3⟩ := h.complete e hmem
    obtain ⟨a', he', r⟩ := u.edge he
    refine ⟨a', he', ?_, ?_, ?_⟩
    · intro k hk
      rw [← r.1 k hk]; exact h3.1 k hk
    · intro l hl
      exact r.layer ((h3.2 _).2 (List.mem_map.2 ⟨l, hl, rfl⟩))
    · intro l hl
      exact (r.layer' hl).imp (h3.2 l).1 id
  · intro s t
    rw [u.count]; exact h.count s t

theorem find_wordDict (w : String × String) (k : String) : find (wordDict ns w) k = if k = "label" ∨ k = qual ns "token" then some (strV w.2) else none := by
  unfold wordDict
  simp only [find_cons]
  by_cases h1 : qual ns "token" = k
  · simp [h1]
  · by_cases h2 : "label" = k
    · subst h2; simp
    · simp [h1, h2, Ne.symm h1, Ne.symm h2, find]

theorem find_markDict (x : String × Markable) (k : String) : find (markDict ns x) k = markAttr ns x k := by
  unfold markDict markAttr
  rw [find_append]
  split
  · rename_i h
    subst h
    rw [(find_eq_none_iff _ _).2 (xmlAttrs_plain (by decide))]
    simp [find_cons]
  · rename_i h
    cases find (xmlAttrs ns x.2.attrs) k with
    | some v => rfl
    | none => simp [find_cons, Ne.symm h, find]

theorem mmaxContent (hd : doc.Ok ns ignore) (hlv : lv.Perm doc.levels) (hss : ss.Perm (doc.sentences ignore)) (hsort : ss.Pairwise (fun a b => naturalLe ((doc.toks a).headD (.int 0)) ((doc.toks b).headD (.int 0)) = true))
    (v : MmaxView ns precedence connected ignore doc lv ss g) {g' : DG} (u : Upto (ExtraLayer ns doc) (ExtraEdgeLayer ns doc) g g') : MmaxContent ns precedence connected ignore doc g' := by
  obtain ⟨h1, h2, h3, h4, h5, h6⟩ := ids_split hd
  obtain ⟨r1, r2, r3⟩ := root_not hd
  have hsid : ∀ m ∈ ss, m.id ∉ doc.wordIds ∧ m.id ≠ qual ns "root_node" := fun m hm => sentence_id hd (hss.mem_iff.1 hm)
  have attr : ∀ m k, k ≠ "layers" → g'.nodeAttr m k = (lastWrite m k (finalCalls doc ss)).or ((lastWrite m k (mmaxBody ns precedence connected ignore doc lv)).or (if m = docRoot ns ∧ k = "metadata" then some (.dict []) else none)) := fun m k hk => (u.nodeAttr m hk).trans (v.attr m k hk)
  have mark : ∀ x ∈ doc.marks, ∀ k, lastWrite x.2.node k (mmaxBody ns precedence connected ignore doc lv) = markAttr ns x k := by
    intro x hx k
    rw [body_write hd hlv (.inr (.inr (.inl ⟨x, hx, rfl, rfl, rfl⟩))) (fun ls' d' h => (call_mark hd hx h).imp And.right And.right), find_markDict]
  have notroot : ∀ {n : NodeId} {k : String}, n ≠ docRoot ns → (if n = docRoot ns ∧ k = "metadata" then some (.dict []) else none : Option Val) = none := by
    intro n k h
    rw [if_neg (fun e => h e.1)]
  have mroot : ∀ x ∈ doc.marks, x.2.node ≠ docRoot ns := by
    intro x hx e
    injection e with e
    exact r2 (e ▸ mem_markIds hx)
  have mtok : ∀ x : String × Markable, markAttr ns x "tokens" = none := by
    intro x
    unfold markAttr
    rw [if_neg (by decide), (find_eq_none_iff _ _).2 (xmlAttrs_plain (by decide))]
  refine ⟨u.ns.trans v.space, u.root.trans v.root, ?_, u.tokens.trans v.tokens, ⟨ss, hss, u.sentences.trans v.sentences, hsort⟩, v.edges.within u, ?_, ?_, ?_, ?_, ?_, ?_, ?_, ?_, ?_, ?_, ?_⟩
  · intro m
    rw [u.hasNode, v.nodes]
    constructor
    · rintro ⟨ls, d, h⟩
      rcases h with ⟨e, _⟩ | ⟨w, hw, e, _⟩ | ⟨x, hx, e, _⟩ | ⟨x, hx, a, ha, hna, e, _⟩ | ⟨hi, y, hy, e, _⟩
      · exact .inl e
      · exact .inr ⟨w.1, by simp [mem_wordIds hw], e⟩
      · exact .inr ⟨x.2.id, by simp [mem_markIds hx], e⟩
      · exact .inr ⟨a.2, by simp [mem_anteIds hx ha], e⟩
      · exact .inr ⟨y.id, by simp [mem_sentIds hi hy], e⟩
    · rintro (rfl | ⟨i, hi, rfl⟩)
      · exact ⟨_, _, .inl ⟨rfl, rfl, rfl⟩⟩
      · simp only [List.mem_append] at hi
        have hw : i ∈ doc.wordIds → ∃ ls d, NodeCall ns ignore doc (.str i) ls d := by
          intro h
          obtain ⟨w, hw, rfl⟩ := List.mem_map.1 h
          exact ⟨_, _, .inr (.inl ⟨w, hw, rfl, rfl, rfl⟩)⟩
        rcases hi with ((hi | hi) | hi) | hi
        · exact hw hi
        · obtain ⟨x, hx, rfl⟩ := List.mem_map.1 hi
          exact ⟨_, _, .inr (.inr (.inl ⟨x, hx, rfl, rfl, rfl⟩))⟩
        · by_cases hiw : i ∈ doc.wordIds
          · exact hw hiw
          · obtain ⟨x, hx, hi⟩ := List.mem_flatMap.1 hi
            obtain ⟨a, ha, rfl⟩ := List.mem_map.1 hi
            exact ⟨_, _, .inr (.inr (.inr (.inl ⟨x, hx, a, ha, hiw, rfl, rfl, rfl⟩)))⟩
        · unfold MmaxDoc.sentIds at hi
          split at hi
          · rename_i hig
            obtain ⟨y, hy, rfl⟩ := List.mem_map.1 hi
            exact ⟨_, _, .inr (.inr (.inr (.inr ⟨hig, y, hy, rfl, rfl, rfl⟩)))⟩
          · cases hi
  · intro w hw k hk
    rw [attr _ k hk, final_write_none, body_write hd hlv (.inr (.inl ⟨w, hw, rfl, rfl, rfl⟩)) (fun ls' d' h => .inl (call_word hd hw h).2), find_wordDict, notroot]
    · simp
    · intro e
      injection e with e
      exact r1 (e ▸ mem_wordIds hw)
    · right
      intro m hm e
      injection e with e
      exact (hsid m hm).1 (e ▸ mem_wordIds hw)
  · intro x hx k hk hk'
    rw [attr _ k hk, final_write_none (.inl hk'), mark x hx, notroot (mroot x hx)]
    simp
  · intro i hi hw hm k hk
    obtain ⟨x, hx, hxi⟩ := List.mem_flatMap.1 hi
    obtain ⟨a, ha, rfl⟩ := List.mem_map.1 hxi
    rw [attr _ k hk, final_write_none, body_write hd hlv (.inr (.inr (.inr (.inl ⟨x, hx, a, ha, hw, rfl, rfl, rfl⟩)))) (fun ls' d' h => .inl (call_missing hd hi hw hm h).2), notroot]
    · rfl
    · intro e
      injection e with e
      exact ante_not_root hd hx ha e
    · right
      intro m hms e
      injection e with e
      have hms := hss.mem_iff.1 hms
      cases hig : ignore with
      | true =>
        subst hig
        exact hd.apart _ (mem_sentIds rfl hms) (e ▸ hi)
      | false =>
        subst hig
        exact hm (e ▸ mem_markIds ((mem_sentences_mark rfl).1 hms))
  · intro m hm
    have hm' := hss.mem_iff.2 hm
    refine ⟨?_, ?_⟩
    · rw [attr _ _ (by decide), final_write (fun x hx y hy h => sentence_inj hd (hss.mem_iff.1 hx) (hss.mem_iff.1 hy) h) hm']; rfl
    · intro hi k hk hk'
      have hms : m ∈ doc.sents := by unfold MmaxDoc.sentences at hm; rwa [if_pos hi] at hm
      rw [attr _ k hk, final_write_none (.inl hk'), body_write hd hlv (.inr (.inr (.inr (.inr ⟨hi, m, hms, rfl, rfl, rfl⟩)))) (fun ls' d' h => .inl (call_sentence hd hi hms h).2), notroot]
      · rfl
      · intro e
        injection e with e
        exact (hsid m hm').2 e
  · intro x hx hc
    rw [attr _ _ (by decide), final_write_none, mark x hx, notroot (mroot x hx), mtok]
    · rfl
    · right
      intro m hm e
      injection e with e
      have hm := hss.mem_iff.1 hm
      cases hig : ignore with
      | true =>
        subst hig
        exact h6 _ (mem_markIds hx) (e ▸ mem_sentIds rfl hm)
      | false =>
        subst hig
        have := mark_inj hd hx ((mem_sentences_mark rfl).1 hm) e
        rw [this] at hc
        simp at hc
  · intro k hk
    rw [attr _ k hk, final_write_none, body_write hd hlv (.inl ⟨rfl, rfl, rfl⟩) (fun ls' d' h => .inl (call_root hd h).2)]
    · simp [find]
    · right
      intro m hm e
      injection e with e
      exact (hsid m hm).2 e.symm
  · intro i hi l
    obtain ⟨w, hw, rfl⟩ := List.mem_map.1 hi
    constructor
    · intro h
      rcases u.layer' h with h | h
      · obtain ⟨ls, d, hc, hl⟩ := (v.layer _ l).1 h
        rw [(call_word hd hw hc).1] at hl; exact hl
      · exfalso
        rcases h with ⟨x, hx, e, _⟩ | ⟨x, hx, a, ha, e, hn, _⟩ <;> injection e with e
        · exact h4 _ hi (e ▸ mem_markIds hx)
        · exact hn (e ▸ hi)
    · intro h
      exact u.layer ((v.layer _ l).2 ⟨_, _, .inr (.inl ⟨w, hw, rfl, rfl, rfl⟩), h⟩)
  · intro x hx
    refine ⟨fun l hl => u.layer ((v.layer _ _).2 ⟨_, _, .inr (.inr (.inl ⟨x, hx, rfl, rfl, rfl⟩)), List.mem_map.2 ⟨l, hl, rfl⟩⟩), ?_⟩
    intro l h
    rcases u.layer' h with h | h
    · left
      obtain ⟨ls, d, hc, hl⟩ := (v.layer _ l).1 h
      rcases call_mark hd hx hc with ⟨rfl, _⟩ | ⟨rfl, _⟩
      · exact hl
      · simp only [levelLayers, List.map_cons, List.map_nil, List.mem_cons, List.not_mem_nil, or_false] at hl ⊢
        tauto
    · exact .inr h
  · intro i hi hw hm
    obtain ⟨x, hx, hxi⟩ := List.mem_flatMap.1 hi
    obtain ⟨a, ha, rfl⟩ := List.mem_map.1 hxi
    refine ⟨fun l hl => u.layer ((v.layer _ _).2 ⟨_, _, .inr (.inr (.inr (.inl ⟨x, hx, a, ha, hw, rfl, rfl, rfl⟩))), List.mem_map.2 ⟨l, hl, rfl⟩⟩), ?_⟩
    intro l h
    rcases u.layer' h with h | h
    · left
      obtain ⟨ls, d, hc, hl⟩ := (v.layer _ l).1 h
      rw [(call_missing hd hi hw hm hc).1] at hl; exact hl
    · exact .inr h
  · intro hi m hm l
    constructor
    · intro h
      rcases u.layer' h with h | h
      · obtain ⟨ls, d, hc, hl⟩ := (v.layer _ l).1 h
        rw [(call_sentence hd hi hm hc).1] at hl; exact hl
      · exfalso
        have hmi := mem_sentIds hi hm
        rcases h with ⟨x, hx, e, _⟩ | ⟨x, hx, a, ha, e, hn, _⟩ <;> injection e with e
        · exact h6 _ (mem_markIds hx) (e ▸ hmi)
        · exact hd.apart _ hmi (e ▸ mem_anteIds hx ha)
    · intro h
      exact u.layer ((v.layer _ l).2 ⟨_, _, .inr (.inr (.inr (.inr ⟨hi, m, hm, rfl, rfl, rfl⟩))), h⟩)
  · intro l
    constructor
    · intro h
      rcases u.layer' h with h | h
      · obtain ⟨ls, d, hc, hl⟩ := (v.layer _ l).1 h
        rw [(call_root hd hc).1] at hl
        simpa using hl
      · exfalso
        rcases h with ⟨x, hx, e, _⟩ | ⟨x, hx, a, ha, e, hn, _⟩ <;> injection e with e
        · exact r2 (e ▸ mem_markIds hx)
        · exact ante_not_root hd hx ha e.symm
    · rintro rfl
      exact u.layer ((v.layer _ _).2 ⟨_, _, .inl ⟨rfl, rfl, rfl⟩, by simp⟩)
end

end DG
end Dg
