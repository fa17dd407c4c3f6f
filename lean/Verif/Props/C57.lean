import Mathlib.Data.List.TakeWhile
import Verif.Lemmas.ConanoWords
import Verif.Lemmas.Words
import Verif.Lemmas.RstRead
import Verif.Spec.Offsets
import Batteries.Lean.Except

/-! **C57**: reading an .rs3 file into a document graph (`RSTGraph`). -/

namespace Dg
open Dict
namespace DG

/-- a file: segment 1 is a satellite (evidence) of segment 2, which is the nucleus of the span group 5; 5 and 3 form a list, group 6; segment 9 is not part of the tree -/
def sampleRst : Rs3Doc :=
  ⟨[(['l', 'i', 's', 't'], some ['m', 'u', 'l', 't', 'i', 'n', 'u', 'c']), (['e', 'v'], some ['r', 's', 't'])],
   [⟨['1'], some ['2'], some ['e', 'v'], .segment (some [' ', 'a', ' ', ' ', 'b', ' '])⟩,
    ⟨['2'], some ['5'], some ['s', 'p', 'a', 'n'], .segment (some ['c'])⟩,
    ⟨['3'], some ['6'], some ['l', 'i', 's', 't'], .segment (some ['d'])⟩,
    ⟨['5'], some ['6'], some ['l', 'i', 's', 't'], .group (some ['s', 'p', 'a', 'n'])⟩,
    ⟨['6'], none, none, .group (some ['m', 'u', 'l', 't', 'i', 'n', 'u', 'c'])⟩,
    ⟨['9'], none, none, .segment (some ['T'])⟩]⟩

theorem sampleRst_ok : sampleRst.ReadOk := by
  constructor <;> decide

/-- success determines the content -/
theorem rstRead_content {name ns : String} {tokenize precedence : Bool} {doc : Rs3Doc} (h : doc.ReadOk) {g : DG} {edus : List NodeId} (hr : rstRead name ns tokenize precedence doc = .ok (g, edus)) :
    Sees g (fullView ns tokenize precedence doc) ∧ edus = (Rs3Doc.segments doc).map (rstNode ns) := by
  have hlen : tokenize = true → precedence = true → 2 ≤ (Rs3Doc.tokens doc).length := by
    intro ht hp
    subst ht hp
    obtain ⟨g0, e0, s0⟩ := rstRead_sees name ns true false h (fun _ h => by cases h)
    by_contra hc
    rcases hb : (Rs3Doc.tokens doc).map (RstTok.node ns) with _ | ⟨t0, _ | ⟨t1, ts⟩⟩
    · unfold rstRead at e0 hr
      cases e1 : rst2graph { init "" ns none with name := name } doc with
      | error e => rw [e1] at e0; cases e0
      | ok st =>
        rw [e1] at e0 hr
        simp only [bind, Except.bind, rstTokenize, if_true] at e0 hr
        cases e2 : List.foldlM rstTokenizeSegment st.1 st.2 with
        | error e => rw [e2] at e0; cases e0
        | ok g1 =>
          rw [e2] at e0 hr
          simp only [Bool.false_eq_true, if_false, pure, Except.pure] at e0
          cases e3 : g1.getAttr g1.root "metadata" with
          | error e => rw [e3] at e0; cases e0
          | ok v =>
            rw [e3] at e0
            obtain rfl : g1 = g0 := congrArg Prod.fst (Except.ok.inj e0)
            have ht : g1.tokens = [] := by
              rw [s0.tokens]
              simpa [fullView, tokView, docView, evView] using hb
            have : g1.addPrecedenceRelations = (g1, some .assertion) := by
              unfold addPrecedenceRelations
              rw [ht]
            simp only [this, batch] at hr
            cases hr
    · unfold rstRead at e0 hr
      cases e1 : rst2graph { init "" ns none with name := name } doc with
      | error e => rw [e1] at e0; cases e0
      | ok st =>
        rw [e1] at e0 hr
        simp only [bind, Except.bind, rstTokenize, if_true] at e0 hr
        cases e2 : List.foldlM rstTokenizeSegment st.1 st.2 with
        | error e => rw [e2] at e0; cases e0
        | ok g1 =>
          rw [e2] at e0 hr
          simp only [Bool.false_eq_true, if_false, pure, Except.pure] at e0
          cases e3 : g1.getAttr g1.root "metadata" with
          | error e => rw [e3] at e0; cases e0
          | ok v =>
            rw [e3] at e0
            obtain rfl : g1 = g0 := congrArg Prod.fst (Except.ok.inj e0)
            have ht : g1.tokens = [t0] := by
              rw [s0.tokens]
              simpa [fullView, tokView, docView, evView] using hb
            have : g1.addPrecedenceRelations = (g1, some .assertion) := by
              unfold addPrecedenceRelations
              rw [ht]
            simp only [this, batch] at hr
            cases hr
    · have := congrArg List.length hb
      simp at this
      omega
  obtain ⟨g', e, s⟩ := rstRead_sees name ns tokenize precedence h hlen
  rw [e] at hr
  cases hr
  exact ⟨s, rfl⟩

theorem fullView_attr (ns : String) (tokenize precedence : Bool) {doc : Rs3Doc} (h : doc.ReadOk) {x : Rs3Xml} (hx : x ∈ doc.elems) (k : String) : (fullView ns tokenize precedence doc).attr (rstNode ns x) k = (docView ns doc).attr (rstNode ns x) k := by
  cases tokenize with
  | false => rfl
  | true =>
    have hf : (Rs3Doc.tokens doc).find? (fun t => decide (t.node ns = rstNode ns x)) = none := by
      rw [List.find?_eq_none]
      intro t _
      simp only [decide_eq_true_eq]
      exact tok_node_ne (h.colon x hx)
    simp only [fullView, if_true, tokView]
    rw [hf]

theorem find_tok (ns : String) {doc : Rs3Doc} (h : doc.ReadOk) {t : RstTok} (ht : t ∈ Rs3Doc.tokens doc) : (Rs3Doc.tokens doc).find? (fun s => decide (s.node ns = t.node ns)) = some t := by
  have hnd : ((Rs3Doc.tokens doc).map (RstTok.node ns)).Nodup := tokens_nodup ns (h.unique.sublist (List.filter_sublist.map _))
  cases hf : (Rs3Doc.tokens doc).find? (fun s => decide (s.node ns = t.node ns)) with
  | none =>
    rw [List.find?_eq_none] at hf
    exact (hf t ht (by simp)).elim
  | some s =>
    have h1 := List.find?_some hf
    simp only [decide_eq_true_eq] at h1
    rw [List.inj_on_of_nodup_map hnd (List.mem_of_find?_eq_some hf) ht h1]

/-- **C57 (well-formed files can be read)**.  If the IDs are unique, parents exist, elements with a parent have a relation name, groups have a type and only one group has no parent, the file can be read; with `precedence=True` it needs at least two tokens. -/
theorem c57_reads (name ns : String) (tokenize precedence : Bool) (doc : Rs3Doc) (h : doc.ReadOk) (h2 : tokenize = true → precedence = true → 2 ≤ (Rs3Doc.tokens doc).length) :
    ∃ g, rstRead name ns tokenize precedence doc = .ok (g, (Rs3Doc.segments doc).map (rstNode ns)) := by
  obtain ⟨g, e, _⟩ := rstRead_sees name ns tokenize precedence h h2
  exact ⟨g, e⟩

example : sampleRst.ReadOk ∧ 2 ≤ (Rs3Doc.tokens sampleRst).length ∧ (rstRead "f" "rst" true true sampleRst).isOk = true := ⟨sampleRst_ok, by decide +kernel, by decide +kernel⟩

/-- **C57 (nodes)**.  The nodes are the segments and groups of the file, the tokens (if `tokenize`), and the default root if there is no root group. -/
theorem c57_nodes (name ns : String) (tokenize precedence : Bool) (doc : Rs3Doc) (h : doc.ReadOk) (g : DG) (edus : List NodeId) (hr : rstRead name ns tokenize precedence doc = .ok (g, edus)) (m : NodeId) :
    g.HasNode m ↔ (∃ x ∈ doc.elems, m = rstNode ns x) ∨ (tokenize = true ∧ ∃ t ∈ Rs3Doc.tokens doc, m = t.node ns) ∨ (m = docRoot ns ∧ ∀ x ∈ doc.elems, x.isRoot = false) := by
  obtain ⟨s, _⟩ := rstRead_content h hr
  rw [s.nodes]
  have hd : (docView ns doc).has m ↔ (∃ x ∈ doc.elems, m = rstNode ns x) ∨ (m = docRoot ns ∧ ∀ x ∈ doc.elems, x.isRoot = false) := by
    rw [docView_has ns h]
    unfold Rs3Doc.rootNode
    cases hf : doc.elems.find? Rs3Xml.isRoot with
    | none =>
      rw [List.find?_eq_none] at hf
      simp only [Bool.not_eq_true] at hf
      simp only [and_iff_left hf]
    | some x =>
      have hx := List.mem_of_find?_eq_some hf
      have hx' : x.isRoot = true := by simpa using List.find?_some hf
      constructor
      · rintro (h1 | h1)
        · exact .inl h1
        · exact .inl ⟨x, hx, h1⟩
      · rintro (h1 | ⟨_, h1⟩)
        · exact .inl h1
        · rw [h1 x hx] at hx'; cases hx'
  cases tokenize with
  | false =>
    show (docView ns doc).has m ↔ _
    rw [hd]; simp
  | true =>
    show (docView ns doc).has m ∨ _ ↔ _
    rw [hd]
    simp only [true_and]
    constructor
    · rintro ((h1 | h1) | h1)
      · exact .inl h1
      · exact .inr (.inr h1)
      · exact .inr (.inl h1)
    · rintro (h1 | h1 | h1)
      · exact .inl (.inl h1)
      · exact .inr h1
      · exact .inl (.inr h1)

/-- **C57 (root)**.  The root of the graph is the group without parent; if there is none, it is the default root `ns:root_node`. -/
theorem c57_root (name ns : String) (tokenize precedence : Bool) (doc : Rs3Doc) (h : doc.ReadOk) (g : DG) (edus : List NodeId) (hr : rstRead name ns tokenize precedence doc = .ok (g, edus)) :
    (∀ x ∈ doc.elems, x.isRoot = true → g.root = rstNode ns x) ∧ ((∀ x ∈ doc.elems, x.isRoot = false) → g.root = docRoot ns) ∧ g.HasNode g.root := by
  obtain ⟨s, _⟩ := rstRead_content h hr
  have hroot : g.root = Rs3Doc.rootNode ns doc := by
    rw [s.root]
    cases tokenize <;> exact rootAfter_eq ns h
  have h1 : ∀ x ∈ doc.elems, x.isRoot = true → g.root = rstNode ns x := by
    intro x hx hxr
    rw [hroot]
    unfold Rs3Doc.rootNode
    cases hf : doc.elems.find? Rs3Xml.isRoot with
    | none => rw [List.find?_eq_none] at hf; exact (hf x hx hxr).elim
    | some y => rw [h.root y (List.mem_of_find?_eq_some hf) x hx (by simpa using List.find?_some hf) hxr]
  have h2 : (∀ x ∈ doc.elems, x.isRoot = false) → g.root = docRoot ns := by
    intro hx
    rw [hroot]
    unfold Rs3Doc.rootNode
    rw [List.find?_eq_none.2 (by simpa using hx)]
  refine ⟨h1, h2, ?_⟩
  rw [c57_nodes name ns tokenize precedence doc h g edus hr]
  by_cases hx : ∃ x ∈ doc.elems, x.isRoot = true
  · obtain ⟨x, hx, hxr⟩ := hx
    exact .inl ⟨x, hx, h1 x hx hxr⟩
  · have : ∀ x ∈ doc.elems, x.isRoot = false := by
      intro x hx'
      cases hc : x.isRoot with
      | false => rfl
      | true => exact (hx ⟨x, hx', hc⟩).elim
    exact .inr (.inr ⟨h2 this, this⟩)

example : ∃ x ∈ sampleRst.elems, x.isRoot = true := ⟨_, .tail _ (.tail _ (.tail _ (.tail _ (.head _)))), by decide⟩

/-- **C57 (EDUs)**.  The list of elementary discourse units is the list of the segments, in document order. -/
theorem c57_edus (name ns : String) (tokenize precedence : Bool) (doc : Rs3Doc) (h : doc.ReadOk) (g : DG) (edus : List NodeId) (hr : rstRead name ns tokenize precedence doc = .ok (g, edus)) :
    edus = (doc.elems.filter Rs3Xml.isSegment).map (rstNode ns) ∧ edus.Nodup := by
  obtain ⟨_, e⟩ := rstRead_content h hr
  refine ⟨e, ?_⟩
  rw [e]
  have : ((Rs3Doc.segments doc).map Rs3Xml.id).Nodup := h.unique.sublist (List.filter_sublist.map _)
  rw [List.nodup_iff_pairwise_ne, List.pairwise_map] at this ⊢
  exact this.imp (fun h e => h (rstId_inj e))

/-- **C57 (edges)**.  The edges are exactly: one from its parent to each element with a parent, carrying the relation name and type (`spans` for the nucleus of a span, `dominates` for satellites and nuclei of multinuclear relations); if tokenized, one spanning edge from each segment to each of its tokens; with `precedence` those from the root to the first token and from each token to the next. -/
theorem c57_edges (name ns : String) (tokenize precedence : Bool) (doc : Rs3Doc) (h : doc.ReadOk) (g : DG) (edus : List NodeId) (hr : rstRead name ns tokenize precedence doc = .ok (g, edus)) :
    EdgesAre g (rstDocEdges ns tokenize precedence doc) := by
  obtain ⟨s, _⟩ := rstRead_content h hr
  refine s.edges.perm ?_
  unfold rstDocEdges fullView
  have := linked_perm ns doc
  cases tokenize with
  | false => simpa [docView, evView] using this
  | true =>
    simp only [if_true, tokView]
    exact (this.append_right _).append_right _

/-- **C57 (tree)**.  Without precedence edges no node has two incoming edges: each element has an edge from its parent only, each token from its segment only. -/
theorem c57_tree (name ns : String) (tokenize : Bool) (doc : Rs3Doc) (h : doc.ReadOk) (g : DG) (edus : List NodeId) (hr : rstRead name ns tokenize false doc = .ok (g, edus)) :
    (∀ x ∈ doc.elems, ∀ u a, g.EdgeWith u (rstNode ns x) a → ∃ p, x.parent = some p ∧ u = rstId ns p) ∧
    (∀ x ∈ doc.elems, ∀ p, x.parent = some p → g.edgeCount (rstId ns p) (rstNode ns x) = 1) ∧
    (∀ t ∈ Rs3Doc.tokens doc, ∀ u a, g.EdgeWith u (t.node ns) a → u = rstNode ns t.seg) ∧
    (tokenize = true → ∀ t ∈ Rs3Doc.tokens doc, g.edgeCount (rstNode ns t.seg) (t.node ns) = 1) := by
  have he := c57_edges name ns tokenize false doc h g edus hr
  have hmem : ∀ e, e ∈ rstDocEdges ns tokenize false doc → (∃ y ∈ doc.elems, ∃ p, y.parent = some p ∧ e.source = rstId ns p ∧ e.target = rstNode ns y) ∨ ∃ t ∈ Rs3Doc.tokens doc, e = tokEdge ns t := by
    intro e hm
    unfold rstDocEdges at hm
    rw [Bool.and_false, if_neg (show ¬ (false = true) by decide), List.append_nil, List.mem_append] at hm
    rcases hm with hm | hm
    · left
      obtain ⟨y, hy, hy'⟩ := List.mem_filterMap.1 hm
      cases hp : y.parent with
      | none => rw [hp] at hy'; cases hy'
      | some p =>
        rw [hp] at hy'
        cases hy'
        exact ⟨y, hy, p, hp, rfl, rfl⟩
    · right
      cases tokenize with
      | false => cases hm
      | true =>
        obtain ⟨t, ht, rfl⟩ := List.mem_map.1 hm
        exact ⟨t, ht, rfl⟩
  have hids : ∀ y ∈ doc.elems, ∀ x ∈ doc.elems, rstNode ns y = rstNode ns x → y = x := fun y hy x hx e => List.inj_on_of_nodup_map h.unique hy hx (rstId_inj e)
  have htn : ((Rs3Doc.tokens doc).map (RstTok.node ns)).Nodup := tokens_nodup ns (h.unique.sublist (List.filter_sublist.map _))
  refine ⟨?_, ?_, ?_, ?_⟩
  · intro x hx u a hE
    obtain ⟨e, hm, rfl, e2, _⟩ := he.sound _ _ _ hE
    rcases hmem e hm with ⟨y, hy, p, hp, h1, h2⟩ | ⟨t, ht, rfl⟩
    · rw [h2] at e2
      obtain rfl := hids y hy x hx e2
      exact ⟨p, hp, h1⟩
    · exact (tok_node_ne (h.colon x hx) e2).elim
  · intro x hx p hp
    rw [he.count]
    unfold rstDocEdges
    rw [Bool.and_false, if_neg (show ¬ (false = true) by decide), List.append_nil, List.countP_append]
    have h2 : (if tokenize = true then (Rs3Doc.tokens doc).map (tokEdge ns) else []).countP (fun e => decide (e.source = rstId ns p ∧ e.target = rstNode ns x)) = 0 := by
      rw [List.countP_eq_zero]
      intro e hm
      cases tokenize with
      | false => cases hm
      | true =>
        obtain ⟨t, ht, rfl⟩ := List.mem_map.1 hm
        simp only [decide_eq_true_eq, not_and]
        exact fun _ e => tok_node_ne (h.colon x hx) e
    rw [h2, Nat.add_zero]
    unfold elemEdges
    have hnd : doc.elems.Nodup := List.Nodup.of_map _ h.unique
    have key : ∀ xs : List Rs3Xml, (∀ y ∈ xs, y ∈ doc.elems) → (xs.filterMap (fun y => y.parent.map (rstEdge ns (extractRelationtypes doc.rels) y))).countP (fun e => decide (e.source = rstId ns p ∧ e.target = rstNode ns x)) = xs.count x := by
      intro xs hxs
      induction xs with
      | nil => rfl
      | cons y ys ih =>
        have ih := ih (fun z hz => hxs z (by simp [hz]))
        rw [List.count_cons, List.filterMap_cons]
        cases hq : y.parent with
        | none =>
          simp only [Option.map_none]
          rw [ih]
          have : (y == x) = false := by
            rw [beq_eq_false_iff_ne]
            rintro rfl
            rw [hp] at hq; cases hq
          rw [this]; simp
        | some q =>
          simp only [Option.map_some]
          rw [List.countP_cons, ih]
          congr 1
          by_cases hyx : y = x
          · subst hyx
            rw [hp] at hq
            cases hq
            simp [rstEdge]
          · have h1 : (y == x) = false := beq_eq_false_iff_ne.2 hyx
            have h3 : ¬ ((rstEdge ns (extractRelationtypes doc.rels) y q).source = rstId ns p ∧ (rstEdge ns (extractRelationtypes doc.rels) y q).target = rstNode ns x) := fun hc => hyx (hids y (hxs y (by simp)) x hx hc.2)
            rw [h1]
            simp [h3]
    rw [key doc.elems (fun _ h => h)]
    exact List.count_eq_one_of_mem hnd hx
  · intro t ht u a hE
    obtain ⟨e, hm, rfl, e2, _⟩ := he.sound _ _ _ hE
    rcases hmem e hm with ⟨y, hy, p, hp, h1, h2⟩ | ⟨s, hs, rfl⟩
    · rw [h2] at e2
      exact (tok_node_ne (h.colon y hy) e2.symm).elim
    · rw [List.inj_on_of_nodup_map htn hs ht e2]
      rfl
  · intro htk t ht
    subst htk
    rw [he.count]
    unfold rstDocEdges
    rw [Bool.and_false, if_neg (show ¬ (false = true) by decide), List.append_nil, List.countP_append, if_pos (Eq.refl true), List.countP_map]
    have h1 : (elemEdges ns doc).countP (fun e => decide (e.source = rstNode ns t.seg ∧ e.target = t.node ns)) = 0 := by
      rw [List.countP_eq_zero]
      intro e hm
      unfold elemEdges at hm
      obtain ⟨y, hy, hy'⟩ := List.mem_filterMap.1 hm
      cases hp : y.parent with
      | none => rw [hp] at hy'; cases hy'
      | some p =>
        rw [hp] at hy'
        cases hy'
        simp only [decide_eq_true_eq, not_and]
        exact fun _ e => tok_node_ne (h.colon y hy) e.symm
    rw [h1, Nat.zero_add]
    have h2 : (Rs3Doc.tokens doc).countP ((fun e => decide (e.source = rstNode ns t.seg ∧ e.target = t.node ns)) ∘ tokEdge ns) = (Rs3Doc.tokens doc).count t := by
      refine List.countP_congr ?_
      intro s hs
      simp only [Function.comp, beq_iff_eq]
      rw [decide_eq_true_eq]
      show rstNode ns s.seg = rstNode ns t.seg ∧ s.node ns = t.node ns ↔ _
      exact ⟨fun hc => List.inj_on_of_nodup_map htn hs ht hc.2, fun e => by rw [e]; exact ⟨rfl, rfl⟩⟩
    rw [h2]
    exact List.count_eq_one_of_mem (List.Nodup.of_map _ htn) ht

example : (Rs3Doc.tokens sampleRst).length = 5 ∧ sampleRst.elems.length = 6 := by decide +kernel

/-- **C57 (tokens)**.  With `tokenize` the token list contains the words of all segments in document order (whitespace separates words); the nodes carry the word as `ns:token` and label, and get_tokens() yields the words in this order. -/
theorem c57_tokens (name ns : String) (precedence : Bool) (doc : Rs3Doc) (h : doc.ReadOk) (g : DG) (edus : List NodeId) (hr : rstRead name ns true precedence doc = .ok (g, edus)) :
    g.tokens = (Rs3Doc.tokens doc).map (RstTok.node ns) ∧ g.tokens.Nodup ∧ (Rs3Doc.tokens doc).map RstTok.word = (Rs3Doc.segments doc).flatMap (fun x => splitWs x.text) ∧
    (∀ t ∈ Rs3Doc.tokens doc, g.nodeAttr (t.node ns) (qual ns "token") = some (strVal t.word) ∧ g.nodeAttr (t.node ns) "label" = some (strVal t.word) ∧ ∀ l, g.NodeLayer (t.node ns) l ↔ l = .str ns ∨ l = .str (qual ns "token")) ∧
    g.getTokens = ((Rs3Doc.tokens doc).map (fun t => (t.node ns, strVal t.word)), none) := by
  obtain ⟨s, _⟩ := rstRead_content h hr
  have htok : g.tokens = (Rs3Doc.tokens doc).map (RstTok.node ns) := by
    rw [s.tokens]
    simp [fullView, tokView, docView, evView]
  have q : ∀ s, "label" ≠ qual ns s := fun s h => qual_ne_plain (by decide) h.symm
  have hattr : ∀ t ∈ Rs3Doc.tokens doc, ∀ k, k ≠ "layers" → g.nodeAttr (t.node ns) k = find (tokAttrs ns t) k := by
    intro t ht k hk
    rw [s.attr _ _ hk]
    simp only [fullView, if_true, tokView]
    rw [find_tok ns h ht]
  have h1 : ∀ t ∈ Rs3Doc.tokens doc, g.nodeAttr (t.node ns) (qual ns "token") = some (strVal t.word) := by
    intro t ht
    rw [hattr t ht _ (fun h => qual_ne_plain (by decide) h)]
    simp [tokAttrs]
  refine ⟨htok, ?_, ?_, ?_, ?_⟩
  · rw [htok]
    exact tokens_nodup ns (h.unique.sublist (List.filter_sublist.map _))
  · show ((Rs3Doc.segments doc).flatMap segTokens).map _ = _
    rw [List.map_flatMap]
    congr 1
    funext x
    unfold segTokens
    rw [List.map_map]
    exact List.zipIdx_map_fst ..
  · intro t ht
    refine ⟨h1 t ht, ?_, ?_⟩
    · rw [hattr t ht _ (by decide)]
      simp [tokAttrs, find, Ne.symm (q _)]
    · intro l
      rw [s.layer]
      show (docView ns doc).layer _ l ∨ _ ↔ _
      constructor
      · rintro (h2 | ⟨t', _, _, h2⟩)
        · obtain ⟨g0, e0, s0⟩ := rst2graph_ok name ns h
          have := (Sees.sane (w := docView ns doc) s0 (docView_layers ns doc)).layer _ _ h2
          exact (docView_noToken ns h t this).elim
        · exact h2
      · intro h2
        exact .inr ⟨t, ht, rfl, h2⟩
  · unfold getTokens
    rw [htok]
    have hns : g.ns = ns := s.ns.trans (by cases precedence <;> rfl)
    have key : ∀ ts : List RstTok, (∀ t ∈ ts, t ∈ Rs3Doc.tokens doc) → Gen.collect (fun t => match g.getToken t with
      | .ok v => .ok (some (t, v))
      | .error e => .error e) (ts.map (RstTok.node ns)) = (ts.map (fun t => (t.node ns, strVal t.word)), none) := by
      intro ts hts
      induction ts with
      | nil => rfl
      | cons t ts ih =>
        have hg : g.getToken (t.node ns) = .ok (strVal t.word) := by
          unfold getToken
          rw [hns]
          exact getAttr_ok.2 (h1 t (hts t (by simp)))
        have := ih (fun t ht => hts t (by simp [ht]))
        simp only [List.map_cons]
        unfold Gen.collect
        simp only [hg, this]
    exact key _ (fun _ h => h)

example : (rstRead "f" "rst" true false sampleRst).toOption.map (fun r => (r.1.getTokens.1.map Prod.snd, r.2)) =
    some ([strVal ['a'], strVal ['b'], strVal ['c'], strVal ['d'], strVal ['T']], [.str "rst:1", .str "rst:2", .str "rst:3", .str "rst:9"]) := by decide +kernel

/-- **C57 (segments)**.  A segment node carries its text without surrounding whitespace, and the layers `ns` and `ns:segment`. -/
theorem c57_segment (name ns : String) (tokenize precedence : Bool) (doc : Rs3Doc) (h : doc.ReadOk) (g : DG) (edus : List NodeId) (hr : rstRead name ns tokenize precedence doc = .ok (g, edus)) (x : Rs3Xml) (hx : x ∈ doc.elems) (text : Option (List Char)) (hk : x.kind = .segment text) :
    g.nodeAttr (rstNode ns x) (qual ns "text") = some (strVal (sanitizeString text)) ∧
    g.nodeAttr (rstNode ns x) "label" = some (strVal (rstSegmentLabel x.id (typeName (extractRelationtypes doc.rels) x).toList (sanitizeString text))) ∧
    g.nodeAttr (rstNode ns x) (qual ns "group_type") = none := by
  obtain ⟨s, _⟩ := rstRead_content h hr
  have hseg : x.isSegment = true := by simp [Rs3Xml.isSegment, hk]
  have q1 : qual ns "group_type" ≠ qual ns "segment_type" := fun h => absurd (qual_inj h) (by decide)
  have q2 : qual ns "group_type" ≠ qual ns "rel_name" := fun h => absurd (qual_inj h) (by decide)
  have q4 : qual ns "text" ≠ qual ns "group_type" := fun h => absurd (qual_inj h) (by decide)
  have q5 : ∀ s, qual ns s ≠ "metadata" := fun s h => qual_ne_plain (by decide) h
  have q : ∀ s, "label" ≠ qual ns s := fun s h => qual_ne_plain (by decide) h.symm
  refine ⟨?_, ?_, ?_⟩
  · rw [s.attr _ _ (fun h => qual_ne_plain (by decide) h), fullView_attr ns _ _ h hx, docView_text ns h (List.mem_filter.2 ⟨hx, hseg⟩)]
    simp [Rs3Xml.text, hk]
  · rw [s.attr _ _ (by decide), fullView_attr ns _ _ h hx]
    simp only [docView, evView, if_neg (q _), if_neg (show ¬ "label" = "metadata" by decide), declOf_elem ns h hx]
    simp only [elemAttrs, hk]
    have : ownType (extractRelationtypes doc.rels) x = (typeName (extractRelationtypes doc.rels) x).toList := by
      have := ownType_eq (extractRelationtypes doc.rels) x
      simp only [strVal, Val.atom.injEq, Atom.str.injEq] at this
      rw [← this, String.toList_ofList]
    rw [this]
    simp
  · rw [s.attr _ _ (fun h => qual_ne_plain (by decide) h), fullView_attr ns _ _ h hx]
    simp only [docView, evView, if_neg q1, if_neg q2, if_neg (q5 _), declOf_elem ns h hx]
    simp [elemAttrs, hk, find, q, q4]

/-- stripping white space -/
theorem stripUni_stripped (s : List Char) : Trimmed isUniSpace s (stripUni s) := by
  have h1 : s = s.takeWhile isUniSpace ++ s.dropWhile isUniSpace := List.takeWhile_append_dropWhile.symm
  generalize hm : s.dropWhile isUniSpace = m at h1
  have h2 : m.reverse = m.reverse.takeWhile isUniSpace ++ m.reverse.dropWhile isUniSpace := List.takeWhile_append_dropWhile.symm
  have h3 : m = (m.reverse.dropWhile isUniSpace).reverse ++ (m.reverse.takeWhile isUniSpace).reverse := by
    rw [← List.reverse_append, ← h2, List.reverse_reverse]
  have hs : stripUni s = (m.reverse.dropWhile isUniSpace).reverse := by rw [stripUni, hm]
  rw [hs]
  refine ⟨s.takeWhile isUniSpace, (m.reverse.takeWhile isUniSpace).reverse, by rw [List.append_assoc, ← h3]; exact h1, fun c hc => List.mem_takeWhile_imp hc, fun c hc => List.mem_takeWhile_imp (List.mem_reverse.1 hc), ?_, ?_⟩
  · intro c hc
    have hmh : m.head? = some c := by
      rw [h3]
      cases e : (m.reverse.dropWhile isUniSpace).reverse with
      | nil => rw [e] at hc; simp at hc
      | cons a b => rw [e] at hc; simpa using hc
    have := List.head?_dropWhile_not isUniSpace s
    rw [hm, hmh] at this
    simpa using this
  · intro c hc
    rw [List.getLast?_reverse] at hc
    have := List.head?_dropWhile_not isUniSpace m.reverse
    rw [hc] at this
    simpa using this

/-- **C57 (text)**.  The text of a segment node is the text of the element without surrounding white space, and the tokens of a segment are the words of that text, in order; a segment element without text has an empty text and no tokens. -/
theorem c57_text (name ns : String) (tokenize precedence : Bool) (doc : Rs3Doc) (h : doc.ReadOk) (g : DG) (edus : List NodeId) (hr : rstRead name ns tokenize precedence doc = .ok (g, edus)) (x : Rs3Xml) (hx : x ∈ doc.elems) (text : Option (List Char)) (hk : x.kind = .segment text) :
    ∃ t, g.nodeAttr (rstNode ns x) (qual ns "text") = some (strVal t) ∧ Trimmed isUniSpace (text.getD []) t ∧ Words isUniSpace (text.getD []) ((segTokens x).map RstTok.word) ∧ (segTokens x).map RstTok.num = List.range (segTokens x).length := by
  refine ⟨_, (c57_segment name ns tokenize precedence doc h g edus hr x hx text hk).1, ?_, ?_, ?_⟩
  · cases text with
    | none => exact ⟨[], [], rfl, by simp, by simp, by simp [sanitizeString], by simp [sanitizeString]⟩
    | some s => exact stripUni_stripped s
  · have hw : (segTokens x).map RstTok.word = splitBy isUniSpace (sanitizeString text) := by
      simp [segTokens, Rs3Xml.text, hk, List.map_map, Function.comp_def, splitWs_splitBy]
    rw [hw]
    cases text with
    | none => exact Words.nil
    | some s =>
      obtain ⟨pre, post, e, h1, h2, _, _⟩ := stripUni_stripped s
      show Words _ s (splitBy _ (stripUni s))
      have hp : ∀ (pre : List Char) {t : List Char} {ws}, (∀ c ∈ pre, isUniSpace c = true) → Words isUniSpace t ws → Words isUniSpace (pre ++ t) ws := by
        intro pre
        induction pre with
        | nil => intro t ws _ h; exact h
        | cons a as ih => intro t ws ha h; exact .space (ha a (by simp)) (ih (fun c hc => ha c (by simp [hc])) h)
      have hpost : Words isUniSpace post [] := by
        have := hp post h2 Words.nil
        rwa [List.append_nil] at this
      have happ : ∀ {t ws}, Words isUniSpace t ws → Words isUniSpace (t ++ post) ws := by
        intro t ws hw
        induction hw with
        | nil => exact hpost
        | space h _ ih => exact .space h ih
        | @word w s ws hn hw hs _ ih =>
          rw [List.append_assoc]
          refine .word hn hw ?_ ih
          intro c hc
          cases s with
          | nil => exact h2 c (List.mem_of_mem_head? hc)
          | cons a b => exact hs c (by simpa using hc)
      conv => arg 2; rw [e]
      exact (List.append_assoc pre _ post).symm ▸ hp pre h1 (happ (splitBy_words isUniSpace (stripUni s)))
  · simp [segTokens, List.map_map, Function.comp_def, List.range_eq_range']

example : sampleRst.ReadOk ∧ (∃ x ∈ sampleRst.elems, ∃ s, x.kind = .segment (some s) ∧ 2 ≤ (segTokens x).length) ∧ (rstRead "f" "rst" true true sampleRst).isOk = true :=
  ⟨sampleRst_ok, ⟨_, .head _, _, rfl, by decide +kernel⟩, by decide +kernel⟩

/-- **C57 (groups)**.  A group node carries its type; the root group has the layers `ns` and `ns:root`, the others `ns` and `ns:group`. -/
theorem c57_group (name ns : String) (tokenize precedence : Bool) (doc : Rs3Doc) (h : doc.ReadOk) (g : DG) (edus : List NodeId) (hr : rstRead name ns tokenize precedence doc = .ok (g, edus)) (x : Rs3Xml) (hx : x ∈ doc.elems) (type : List Char) (hk : x.kind = .group (some type)) :
    g.nodeAttr (rstNode ns x) (qual ns "group_type") = some (strVal type) ∧ g.nodeAttr (rstNode ns x) "label" = some (.atom (.str (ns ++ ":group:" ++ String.ofList type ++ ":" ++ String.ofList x.id))) ∧
    g.nodeAttr (rstNode ns x) (qual ns "text") = none := by
  obtain ⟨s, _⟩ := rstRead_content h hr
  have q1 : qual ns "group_type" ≠ qual ns "segment_type" := fun h => absurd (qual_inj h) (by decide)
  have q2 : qual ns "group_type" ≠ qual ns "rel_name" := fun h => absurd (qual_inj h) (by decide)
  have q1' : qual ns "text" ≠ qual ns "segment_type" := fun h => absurd (qual_inj h) (by decide)
  have q2' : qual ns "text" ≠ qual ns "rel_name" := fun h => absurd (qual_inj h) (by decide)
  have q4 : qual ns "text" ≠ qual ns "group_type" := fun h => absurd (qual_inj h) (by decide)
  have q5 : ∀ s, qual ns s ≠ "metadata" := fun s h => qual_ne_plain (by decide) h
  have q : ∀ s, "label" ≠ qual ns s := fun s h => qual_ne_plain (by decide) h.symm
  refine ⟨?_, ?_, ?_⟩
  · rw [s.attr _ _ (fun h => qual_ne_plain (by decide) h), fullView_attr ns _ _ h hx]
    simp only [docView, evView, if_neg q1, if_neg q2, if_neg (q5 _), declOf_elem ns h hx]
    simp only [elemAttrs, hk, find_groupAttrs, if_true]
    rfl
  · rw [s.attr _ _ (by decide), fullView_attr ns _ _ h hx]
    simp only [docView, evView, if_neg (q _), if_neg (show ¬ "label" = "metadata" by decide), declOf_elem ns h hx]
    simp only [elemAttrs, hk, find_groupAttrs, if_neg (q _), if_true]
    congr 3
    apply String.toList_inj.1
    simp [qual, String.toList_append]
  · rw [s.attr _ _ (fun h => qual_ne_plain (by decide) h), fullView_attr ns _ _ h hx]
    simp only [docView, evView, if_neg q1', if_neg q2', if_neg (q5 _), declOf_elem ns h hx]
    simp only [elemAttrs, hk, find_groupAttrs, if_neg q4, if_neg (Ne.symm (q _))]

/-- **C57 (layers)**.  Every element has the layers `ns` and `ns:segment`, `ns:root` or `ns:group`, and no others. -/
theorem c57_layers (name ns : String) (tokenize precedence : Bool) (doc : Rs3Doc) (h : doc.ReadOk) (g : DG) (edus : List NodeId) (hr : rstRead name ns tokenize precedence doc = .ok (g, edus)) (x : Rs3Xml) (hx : x ∈ doc.elems) (l : Atom) :
    g.NodeLayer (rstNode ns x) l ↔ l = .str ns ∨ l = .str (ns ++ ":" ++ (if x.isSegment then "segment" else if x.parent = none then "root" else "group")) := by
  obtain ⟨s, _⟩ := rstRead_content h hr
  rw [s.layer]
  have hd : (docView ns doc).layer (rstNode ns x) l ↔ l = .str ns ∨ l = .str (qual ns (if x.isSegment then "segment" else if x.parent = none then "root" else "group")) := by
    simp only [docView, evView, declOf_elem ns h hx]
    unfold elemLayers
    split
    · simp
    · split <;> simp
  have hq : ∀ s, ns ++ ":" ++ s = qual ns s := by
    intro s
    apply String.toList_inj.1
    simp [qual, String.toList_append]
  rw [hq]
  cases tokenize with
  | false => exact hd
  | true =>
    show (docView ns doc).layer _ l ∨ _ ↔ _
    rw [hd]
    refine or_iff_left ?_
    rintro ⟨t, _, e, _⟩
    exact tok_node_ne (h.colon x hx) e.symm

/-- **C57 (segment type and relation name, exactly)**.  For an element `x` that the reader handles after the elements `pre` and before `post` (segments are handled before groups): the segment type is "nucleus" if a satellite of `x` is handled after `x`, or if `x` is an inner group whose own type is "span" and that has a satellite; otherwise it is the own type of `x`.
The relation name is that of the last child that is a satellite or a nucleus of a multinuclear relation; if there is none, that of the first child handled before `x`; if there is no such child, there is no relation name. -/
theorem c57_segment_type (name ns : String) (tokenize precedence : Bool) (doc : Rs3Doc) (h : doc.ReadOk) (g : DG) (edus : List NodeId) (hr : rstRead name ns tokenize precedence doc = .ok (g, edus)) (pre post : List Rs3Xml) (x : Rs3Xml) (ho : rstOrder doc = pre ++ x :: post) :
    let rels := extractRelationtypes doc.rels
    g.nodeAttr (rstNode ns x) (qual ns "segment_type") = some (.atom (.str (if (∃ y ∈ x :: post, SatelliteOf rels y x) ∨ (x.isSegment = false ∧ x.parent ≠ none ∧ typeName rels x = "span" ∧ ∃ y ∈ pre, SatelliteOf rels y x) then "nucleus" else typeName rels x))) ∧
    g.nodeAttr (rstNode ns x) (qual ns "rel_name") =
      (match ((pre ++ x :: post).filter (fun y => decide (ChildOf y x ∧ Rs3Xml.role rels y ≠ Role.span))).getLast? with
        | some y => y.relname
        | none => (pre.find? (fun y => decide (ChildOf y x))).bind Rs3Xml.relname).map strVal := by
  intro rels
  obtain ⟨s, _⟩ := rstRead_content h hr
  have hx : x ∈ doc.elems := mem_rstOrder.1 (by rw [ho]; simp)
  have hf := facts_final ns rels h ho
  obtain ⟨h1, h2⟩ := hf
  have hsat : ∀ ys : List Rs3Xml, (∃ y ∈ ys.filter (fun y => decide (ChildOf y x)), y.role rels = .satellite) ↔ ∃ y ∈ ys, SatelliteOf rels y x := by
    intro ys
    constructor
    · rintro ⟨y, hy, hr⟩
      obtain ⟨hy, hc⟩ := List.mem_filter.1 hy
      exact ⟨y, hy, by simpa using hc, hr⟩
    · rintro ⟨y, hy, hc, hr⟩
      exact ⟨y, List.mem_filter.2 ⟨hy, by simpa using hc⟩, hr⟩
  have hown : (ownType rels x = spanS) ↔ typeName rels x = "span" := by
    have := ownType_eq rels x
    simp only [strVal, Val.atom.injEq, Atom.str.injEq] at this
    rw [← this]
    constructor
    · intro e; rw [e]; rfl
    · intro e
      have := congrArg String.toList e
      rw [String.toList_ofList] at this
      exact this
  constructor
  · rw [s.attr _ _ (fun h => qual_ne_plain (by decide) h), fullView_attr ns _ _ h hx]
    simp only [docView, evView, if_true]
    rw [h1, Option.map_some]
    congr 1
    by_cases hc : (∃ y ∈ x :: post, SatelliteOf rels y x) ∨ (x.isSegment = false ∧ x.parent ≠ none ∧ typeName rels x = "span" ∧ ∃ y ∈ pre, SatelliteOf rels y x)
    · rw [if_pos hc, if_pos (by rw [hsat, hsat, hown]; exact hc)]; rfl
    · rw [if_neg hc, if_neg (by rw [hsat, hsat, hown]; exact hc)]
      exact ownType_eq rels x
  · rw [s.attr _ _ (fun h => qual_ne_plain (by decide) h), fullView_attr ns _ _ h hx]
    simp only [docView, evView, if_neg (seg_ne_rel ns), if_true]
    rw [h2]
    congr 1
    have e1 : lastRelation rels (pre.filter (fun y => decide (ChildOf y x)) ++ (x :: post).filter (fun y => decide (ChildOf y x))) = ((pre ++ x :: post).filter (fun y => decide (ChildOf y x ∧ y.role rels ≠ .span))).getLast? := by
      unfold lastRelation
      rw [← List.filter_append, List.filter_filter]
      congr 2
      funext y
      simp [Bool.and_comm]
    rw [e1]
    cases ((pre ++ x :: post).filter (fun y => decide (ChildOf y x ∧ y.role rels ≠ .span))).getLast? with
    | some y => rfl
    | none =>
      simp only
      rw [List.head?_filter]

/-- **C57 (nuclei)**.  If all satellites of an element come after it in the file and are not segments while it is a group, or if it is an inner group with the role of a span, an element with a satellite has the segment type "nucleus".
Full statement: every element with a satellite has it (see `c57_fails_nucleus`). -/
theorem c57_nucleus_partial (name ns : String) (tokenize precedence : Bool) (doc : Rs3Doc) (h : doc.ReadOk) (g : DG) (edus : List NodeId) (hr : rstRead name ns tokenize precedence doc = .ok (g, edus)) (pre post : List Rs3Xml) (x y : Rs3Xml) (ho : rstOrder doc = pre ++ x :: post)
    (hy : SatelliteOf (extractRelationtypes doc.rels) y x) (hw : y ∈ post ∨ (y ∈ pre ∧ x.isSegment = false ∧ x.parent ≠ none ∧ typeName (extractRelationtypes doc.rels) x = "span")) :
    g.nodeAttr (rstNode ns x) (qual ns "segment_type") = some (.atom (.str "nucleus")) := by
  obtain ⟨h1, _⟩ := c57_segment_type name ns tokenize precedence doc h g edus hr pre post x ho
  rw [h1, if_pos]
  rcases hw with hw | ⟨hw, h2, h3, h4⟩
  · exact .inl ⟨y, by simp [hw], hy⟩
  · exact .inr ⟨h2, h3, h4, y, hw, hy⟩

/-- a file in which segment 2 is a satellite of segment 1 -/
def sampleRst2 : Rs3Doc :=
  ⟨[(['e', 'v'], some ['r', 's', 't'])],
   [⟨['1'], some ['3'], some ['s', 'p', 'a', 'n'], .segment (some ['a'])⟩, ⟨['2'], some ['1'], some ['e', 'v'], .segment (some ['b'])⟩, ⟨['3'], none, none, .group (some ['s', 'p', 'a', 'n'])⟩]⟩

theorem sampleRst2_ok : sampleRst2.ReadOk := by
  constructor <;> decide

example : ∃ pre x post y, rstOrder sampleRst2 = pre ++ x :: post ∧ y ∈ post ∧ SatelliteOf (extractRelationtypes sampleRst2.rels) y x ∧ (rstRead "f" "rst" true false sampleRst2).isOk = true :=
  ⟨[], _, _, _, rfl, List.mem_cons_self, by decide, by decide +kernel⟩

/-- **C57 fails for satellites before their nucleus**: segment 1 is a satellite of segment 2, but the segment type of segment 2 is "span". -/
theorem c57_fails_nucleus : sampleRst.ReadOk ∧ (∃ x y, x ∈ sampleRst.elems ∧ y ∈ sampleRst.elems ∧ x.id = ['2'] ∧ SatelliteOf (extractRelationtypes sampleRst.rels) y x) ∧
    (rstRead "f" "rst" true false sampleRst).toOption.map (fun r => r.1.nodeAttr (.str "rst:2") "rst:segment_type") = some (some (.atom (.str "span"))) :=
  ⟨sampleRst_ok, ⟨_, _, .tail _ (.head _), .head _, rfl, by decide⟩, by decide +kernel⟩

/-- a file with two root groups -/
def sampleRst3 : Rs3Doc :=
  ⟨[], [⟨['1'], some ['3'], some ['s', 'p', 'a', 'n'], .segment (some ['a'])⟩, ⟨['2'], some ['4'], some ['s', 'p', 'a', 'n'], .segment (some ['b'])⟩, ⟨['3'], none, none, .group (some ['s', 'p', 'a', 'n'])⟩, ⟨['4'], none, none, .group (some ['s', 'p', 'a', 'n'])⟩]⟩

/-- **C57 fails for files with several trees**: the file is read without an error, but the first root group is not a node of the graph, and no edge leads to its segment. -/
theorem c57_fails_two_roots : (rstRead "f" "rst" true false sampleRst3).toOption.map (fun r => (has r.1.nodes (.str "rst:3"), r.1.root, (r.1.inEdges (.str "rst:1")).length, (r.1.inEdges (.str "rst:2")).length)) =
    some (false, .str "rst:4", 0, 1) := by decide +kernel

/-- **C57 fails for other namespaces**: the edges to the tokens always have the layers "rst" and "rst:token", also if the namespace is another one. -/
theorem c57_fails_namespace : (rstRead "f" "x" true false sampleRst2).toOption.map (fun r => (r.1.outEdges (.str "x:2")).map (fun e => find e.2.2.2 "layers")) = some [some (.set [.str "rst", .str "rst:token"])] := by decide +kernel

end DG
end Dg
