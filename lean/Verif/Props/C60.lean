import Verif.Lemmas.UrmlRead
import Verif.Props.C41
import Verif.Props.C59Tree
import Batteries.Lean.Except

/-! **C60**: reading a URML document (`URMLDocumentGraph`). -/

namespace Dg
open Dict
namespace DG

/-! ### names -/

theorem tokenName_inj {s s' : UrmlSeg} {i j : Nat} (h : s.tokenName i = s'.tokenName j) : s.id = s'.id ∧ i = j := by
  have h' := congrArg String.toList h
  simp only [UrmlSeg.tokenName, String.toList_append, String.toList_ofList] at h'
  have h2 := congrArg List.reverse h'
  simp only [List.reverse_append, List.reverse_cons, List.append_assoc, List.singleton_append] at h2
  obtain ⟨e1, e2⟩ := sep_cancel (by simpa using underscore_decimal i) (by simpa using underscore_decimal j) h2
  exact ⟨String.toList_inj.1 (List.reverse_injective e2), decimal_injective (List.reverse_injective e1)⟩

theorem mem_segTokens {tokenize : Bool} {s : UrmlSeg} {t : String × Option (List Char)} : t ∈ s.tokens tokenize ↔ ∃ i, (t.2, i) ∈ (s.words tokenize).zipIdx ∧ t.1 = s.tokenName i := by
  unfold UrmlSeg.tokens
  rw [List.mem_map]
  constructor
  · rintro ⟨w, hw, rfl⟩
    exact ⟨w.2, hw, rfl⟩
  · rintro ⟨i, hi, e⟩
    exact ⟨_, hi, by rw [← e]⟩

theorem segTokens_names (tokenize : Bool) (s : UrmlSeg) : ((s.tokens tokenize).map Prod.fst).Nodup := by
  have : (s.tokens tokenize).map Prod.fst = (List.range' 0 (s.words tokenize).length).map s.tokenName := by
    rw [← List.zipIdx_map_snd, List.map_map]
    simp [UrmlSeg.tokens, List.map_map, Function.comp_def]
  rw [this]
  exact List.Nodup.map (fun a b h => (tokenName_inj h).2) List.nodup_range'

theorem urmlTokens_nodup {tokenize : Bool} {doc : UrmlDoc} (h : (doc.segments.map UrmlSeg.id).Nodup) : ((doc.tokens tokenize).map Prod.fst).Nodup := by
  unfold UrmlDoc.tokens
  rw [List.map_flatMap, List.nodup_flatMap]
  refine ⟨fun s _ => segTokens_names tokenize s, ?_⟩
  have hp : doc.segments.Pairwise (fun a b => a.id ≠ b.id) := by
    have := h
    unfold List.Nodup at this
    rwa [List.pairwise_map] at this
  refine hp.imp ?_
  intro a b hab
  simp only [Function.onFun, List.disjoint_left]
  intro x hx hy
  obtain ⟨t, ht, rfl⟩ := List.mem_map.1 hx
  obtain ⟨t', ht', e⟩ := List.mem_map.1 hy
  obtain ⟨i, _, e1⟩ := mem_segTokens.1 ht
  obtain ⟨j, _, e2⟩ := mem_segTokens.1 ht'
  rw [e1, e2] at e
  exact hab (tokenName_inj e).1.symm

theorem _root_.Dg.UrmlDoc.Ok.seg_ids {doc : UrmlDoc} (h : doc.Ok) : (doc.segments.map UrmlSeg.id).Nodup := (List.nodup_append'.1 h.unique).1

theorem _root_.Dg.UrmlDoc.Ok.seg_unique {doc : UrmlDoc} (h : doc.Ok) {s s' : UrmlSeg} (hs : s ∈ doc.segments) (hs' : s' ∈ doc.segments) (e : s.id = s'.id) : s = s' := List.inj_on_of_nodup_map h.seg_ids hs hs' e

theorem _root_.Dg.UrmlDoc.Ok.rel_unique {doc : UrmlDoc} (h : doc.Ok) {s s' : UrmlRel} (hs : s ∈ doc.relations) (hs' : s' ∈ doc.relations) (e : s.id = s'.id) : s = s' := List.inj_on_of_nodup_map (List.nodup_append'.1 h.unique).2.1 hs hs' e

theorem _root_.Dg.UrmlDoc.Ok.seg_rel {doc : UrmlDoc} (h : doc.Ok) {s : UrmlSeg} {r : UrmlRel} (hs : s ∈ doc.segments) (hr : r ∈ doc.relations) : s.id ≠ r.id :=
  fun e => List.disjoint_left.1 (List.nodup_append'.1 h.unique).2.2 (List.mem_map.2 ⟨s, hs, rfl⟩) (List.mem_map.2 ⟨r, hr, e.symm⟩)

theorem _root_.Dg.UrmlDoc.Ok.tok_fresh {doc : UrmlDoc} (h : doc.Ok) {tokenize : Bool} {t : String × Option (List Char)} (ht : t ∈ doc.tokens tokenize) : t.1 ∉ doc.ids ++ doc.argIds := by
  obtain ⟨s, hs, ht⟩ := List.mem_flatMap.1 ht
  obtain ⟨i, _, e⟩ := mem_segTokens.1 ht
  rw [e]
  exact h.tokens s hs i

theorem _root_.Dg.UrmlDoc.Ok.tok_unique {doc : UrmlDoc} (h : doc.Ok) {tokenize : Bool} {t t' : String × Option (List Char)} (ht : t ∈ doc.tokens tokenize) (ht' : t' ∈ doc.tokens tokenize) (e : t.1 = t'.1) : t = t' := List.inj_on_of_nodup_map (urmlTokens_nodup h.seg_ids) ht ht' e

/-! ### the calls that write attributes -/

/-- the attributes of a segment node -/
def urmlSegAttrs (ns : String) (tokenize : Bool) (doc : UrmlDoc) (s : UrmlSeg) : Attrs :=
  [(qual ns "text", strVal (urmlText s)), ("label", .atom (.str (urmlSegmentLabel s.id (urmlSegmentType doc s.id) (urmlText s) ns tokenize)))]

/-- the attributes of a relation node -/
def urmlNodeAttrs (ns : String) (r : UrmlRel) : Attrs := [(qual ns "rel_name", strVal r.type), (qual ns "rel_type", .atom (.str (if r.par then "parRelation" else "hypRelation")))]

/-- the attributes of a token node -/
def urmlTokAttrs (ns : String) (t : String × Option (List Char)) : Attrs := [(qual ns "token", optVal t.2), ("label", optVal t.2)]

theorem mem_urml_nodes {ns : String} {tokenize : Bool} {doc : UrmlDoc} {m : NodeId} {ls : List String} {d : Attrs} : Instr.node m ls d ∈ urmlCalls ns tokenize doc ↔
    (∃ s ∈ doc.segments, m = .str (qual ns s.id) ∧ ls = [ns, qual ns "segment"] ∧ d = urmlSegAttrs ns tokenize doc s) ∨
    (∃ r ∈ doc.relations, m = .str (qual ns r.id) ∧ ls = [ns, qual ns "relation"] ∧ d = urmlNodeAttrs ns r) ∨
    (∃ t ∈ doc.tokens tokenize, m = .str (qual ns t.1) ∧ ls = [ns, qual ns "token"] ∧ d = urmlTokAttrs ns t) := by
  constructor
  · intro hi
    unfold urmlCalls at hi
    rw [List.mem_append, List.mem_flatMap, List.mem_flatMap] at hi
    rcases hi with ⟨s, hs, hi⟩ | ⟨r, hr, hi⟩
    · unfold urmlSegCalls at hi
      rw [List.mem_append, List.mem_flatMap] at hi
      rcases hi with ⟨t, ht, hi⟩ | hi
      · simp only [List.mem_cons, List.not_mem_nil, or_false, Instr.node.injEq, reduceCtorEq] at hi
        exact .inr (.inr ⟨t, List.mem_flatMap.2 ⟨s, hs, ht⟩, hi⟩)
      · have := List.mem_singleton.1 hi
        simp only [Instr.node.injEq] at this
        exact .inl ⟨s, hs, this⟩
    · unfold urmlRelCalls at hi
      rw [List.mem_cons] at hi
      rcases hi with hi | hi
      · simp only [Instr.node.injEq] at hi
        exact .inr (.inl ⟨r, hr, hi⟩)
      · obtain ⟨e, _, he⟩ := List.mem_map.1 hi
        cases he
  · unfold urmlCalls
    rintro (⟨s, hs, rfl, rfl, rfl⟩ | ⟨r, hr, rfl, rfl, rfl⟩ | ⟨t, ht, rfl, rfl, rfl⟩)
    · exact List.mem_append_left _ (List.mem_flatMap.2 ⟨s, hs, List.mem_append_right _ (.head _)⟩)
    · exact List.mem_append_right _ (List.mem_flatMap.2 ⟨r, hr, .head _⟩)
    · obtain ⟨s, hs, ht⟩ := List.mem_flatMap.1 ht
      exact List.mem_append_left _ (List.mem_flatMap.2 ⟨s, hs, List.mem_append_left _ (List.mem_flatMap.2 ⟨t, ht, .head _⟩)⟩)

/-- each node is declared once -/
theorem urml_unique {ns : String} {tokenize : Bool} {doc : UrmlDoc} (h : doc.Ok) {m : NodeId} {ls ls' : List String} {d d' : Attrs} (h1 : Instr.node m ls d ∈ urmlCalls ns tokenize doc) (h2 : Instr.node m ls' d' ∈ urmlCalls ns tokenize doc) : ls' = ls ∧ d' = d := by
  have inj : ∀ {a b : String}, NodeId.str (qual ns a) = .str (qual ns b) → a = b := by
    intro a b e
    injection e with e
    exact qual_inj e
  have htok : ∀ {t : String × Option (List Char)} {a : String}, t ∈ doc.tokens tokenize → a ∈ doc.ids → NodeId.str (qual ns t.1) = .str (qual ns a) → False := by
    intro t a ht ha e
    rw [← inj e] at ha
    exact h.tok_fresh ht (List.mem_append_left _ ha)
  have hsid : ∀ {s}, s ∈ doc.segments → s.id ∈ doc.ids := fun hs => List.mem_append_left _ (List.mem_map.2 ⟨_, hs, rfl⟩)
  have hrid : ∀ {s}, s ∈ doc.relations → s.id ∈ doc.ids := fun hs => List.mem_append_right _ (List.mem_map.2 ⟨_, hs, rfl⟩)
  rcases mem_urml_nodes.1 h1 with ⟨s, hs, rfl, rfl, rfl⟩ | ⟨s, hs, rfl, rfl, rfl⟩ | ⟨s, hs, rfl, rfl, rfl⟩ <;>
  rcases mem_urml_nodes.1 h2 with ⟨s', hs', e, rfl, rfl⟩ | ⟨s', hs', e, rfl, rfl⟩ | ⟨s', hs', e, rfl, rfl⟩
  · obtain rfl := h.seg_unique hs hs' (inj e); exact ⟨rfl, rfl⟩
  · exact (h.seg_rel hs hs' (inj e)).elim
  · exact (htok hs' (hsid hs) e.symm).elim
  · exact (h.seg_rel hs' hs (inj e).symm).elim
  · obtain rfl := h.rel_unique hs hs' (inj e); exact ⟨rfl, rfl⟩
  · exact (htok hs' (hrid hs) e.symm).elim
  · exact (htok hs (hsid hs') e).elim
  · exact (htok hs (hrid hs') e).elim
  · obtain rfl := h.tok_unique hs hs' (inj e); exact ⟨rfl, rfl⟩

theorem lastWrite_node {s : List Instr} (hok : ∀ i ∈ s, i.Ok (fun _ => False)) {n : NodeId} {ls : List String} {d : Attrs} (h : Instr.node n ls d ∈ s) (hu : ∀ ls' d', Instr.node n ls' d' ∈ s → d' = d) (k : String) : lastWrite n k s = find d k := by
  have hw : ∀ i ∈ s, ∀ v, i.write n k = some v → find d k = some v := by
    intro i hi v hv
    cases i with
    | node n' ls' d' =>
      simp only [Instr.write] at hv
      split at hv
      · rename_i e
        subst e
        rw [hu ls' d' hi] at hv
        exact hv
      · cases hv
    | attr => exact (hok _ hi).1.elim
    | edge => cases hv
    | token => cases hv
    | sentence => cases hv
  cases hd : find d k with
  | some v =>
    refine lastWrite_unique ⟨_, h, by simp [Instr.write, hd]⟩ ?_
    intro i hi v' hv'
    have := hw i hi v' hv'
    rw [hd] at this
    exact (Option.some.inj this).symm
  | none =>
    apply lastWrite_none
    intro i hi
    cases hx : i.write n k with
    | none => rfl
    | some v =>
      have := hw i hi v hx
      rw [hd] at this
      cases this

/-! ### success and failure -/

/-- **C60 (success and failure)**.  Reading a URML document fails with an AssertionError if a hypotactic relation is not made of one nucleus and one satellite; otherwise with NetworkXUnfeasible if the elements form a cycle; with an IndexError if nothing is below anything; with an AssertionError if precedence edges are wanted and there are less than two tokens.  In all other cases it succeeds.  Partial: one would expect that all documents in which no relation contains itself can be read (see c60_fails_alternatives). -/
theorem c60_reads_partial (name : Option String) (ns : String) (tokenize precedence : Bool) (doc : UrmlDoc) (hroot : "root_node" ∉ doc.ids ++ doc.argIds) :
    ((∃ r ∈ doc.relations, ¬ r.Ok) → urmlRead name ns tokenize precedence doc = .error .assertion) ∧
    ((∀ r ∈ doc.relations, r.Ok) →
      (¬ doc.NoCycle tokenize → urmlRead name ns tokenize precedence doc = .error .unfeasible) ∧
      (doc.NoCycle tokenize → doc.links tokenize = [] → urmlRead name ns tokenize precedence doc = .error .index) ∧
      (doc.NoCycle tokenize → doc.links tokenize ≠ [] → tokenize = true → precedence = true → (doc.tokens tokenize).length < 2 → urmlRead name ns tokenize precedence doc = .error .assertion) ∧
      (doc.NoCycle tokenize → doc.links tokenize ≠ [] → (tokenize = true → precedence = true → 2 ≤ (doc.tokens tokenize).length) → ∃ g edus, urmlRead name ns tokenize precedence doc = .ok (g, edus))) := by
  refine ⟨urmlRead_bad name ns tokenize precedence doc, fun hr => ?_⟩
  obtain ⟨h1, h2, h3, h4⟩ := urmlRead_spec name ns tokenize precedence doc hr hroot
  refine ⟨h1, h2, h3, fun a b c => ?_⟩
  obtain ⟨g, r, e, _⟩ := h4 a b c
  exact ⟨g, _, e⟩

theorem urmlRead_content {name : Option String} {ns : String} {tokenize precedence : Bool} {doc : UrmlDoc} (h : doc.Ok) {g : DG} {edus : List NodeId} (hread : urmlRead name ns tokenize precedence doc = .ok (g, edus)) :
    edus = doc.segments.map (fun s => .str (qual ns s.id)) ∧ g.name = urmlName name doc ∧ ∃ r, doc.LongestFrom tokenize r ∧ Sees g (urmlView ns tokenize doc (urmlPrec ns tokenize precedence doc r) r) := by
  obtain ⟨h1, h2, h3, h4⟩ := urmlRead_spec name ns tokenize precedence doc h.rels h.root
  by_cases hc : doc.NoCycle tokenize
  · by_cases hl : doc.links tokenize = []
    · rw [h2 hc hl] at hread; cases hread
    · by_cases hp : tokenize = true → precedence = true → 2 ≤ (doc.tokens tokenize).length
      · obtain ⟨g', r, e, hn, hlf, v⟩ := h4 hc hl hp
        rw [hread] at e
        cases e
        exact ⟨rfl, hn, r, hlf, v⟩
      · simp only [not_forall] at hp
        obtain ⟨ht, hp, h2⟩ := hp
        rw [h3 hc hl ht hp (by omega)] at hread
        cases hread
  · rw [h1 hc] at hread; cases hread

/-! ### nodes -/

/-- **C60 (nodes)**.  The nodes are the segments, the relations, the tokens, and a node for each argument of a relation (also if its ID is not declared); the list of EDUs contains the segments in document order; the graph has the given name or the ID of the document. -/
theorem c60_nodes (name : Option String) (ns : String) (tokenize precedence : Bool) (doc : UrmlDoc) (h : doc.Ok) (g : DG) (edus : List NodeId) (hread : urmlRead name ns tokenize precedence doc = .ok (g, edus)) :
    (∀ m, g.HasNode m ↔ ∃ a, (a ∈ doc.segments.map UrmlSeg.id ∨ a ∈ doc.relations.map UrmlRel.id ∨ a ∈ (doc.tokens tokenize).map Prod.fst ∨ a ∈ doc.argIds) ∧ m = .str (qual ns a)) ∧
    edus = doc.segments.map (fun s => .str (qual ns s.id)) ∧
    g.name = (if name.getD "" = "" then doc.id else name.getD "") ∧ g.ns = ns := by
  obtain ⟨he, hn, r, _, v⟩ := urmlRead_content h hread
  refine ⟨?_, he, ?_, v.ns⟩
  · intro m
    rw [v.nodes]
    show (∃ a, doc.Named tokenize a ∧ m = .str (qual ns a)) ↔ _
    unfold UrmlDoc.Named UrmlDoc.ids
    simp only [List.mem_append]
    constructor
    · rintro ⟨a, ha, e⟩
      exact ⟨a, by tauto, e⟩
    · rintro ⟨a, ha, e⟩
      exact ⟨a, by tauto, e⟩
  · rw [hn]
    unfold urmlName
    cases name with
    | none => simp
    | some s =>
      simp only [Option.getD_some]

theorem urml_attr {name : Option String} {ns : String} {tokenize precedence : Bool} {doc : UrmlDoc} (h : doc.Ok) {g : DG} {edus : List NodeId} (hread : urmlRead name ns tokenize precedence doc = .ok (g, edus)) {m : NodeId} {ls : List String} {d : Attrs} (hm : Instr.node m ls d ∈ urmlCalls ns tokenize doc) (hns : ns ∈ ls) :
    (∀ k, k ≠ "metadata" → k ≠ "layers" → g.nodeAttr m k = find d k) ∧ (m ≠ g.root → "metadata" ∉ keys d → g.nodeAttr m "metadata" = none) ∧ ∀ l, g.NodeLayer m l ↔ l ∈ ls.map Atom.str := by
  obtain ⟨_, _, r, _, v⟩ := urmlRead_content h hread
  have hl : ∀ k, lastWrite m k (urmlCalls ns tokenize doc) = find d k := lastWrite_node (urmlCalls_ok ns tokenize doc) hm (fun ls' d' hx => (urml_unique h hm hx).2)
  refine ⟨?_, ?_, ?_⟩
  · intro k hk hk2
    rw [v.attr m k hk2]
    show (if m = .str (qual ns r) ∧ k = "metadata" then some (Val.dict []) else lastWrite m k (urmlCalls ns tokenize doc)) = _
    rw [if_neg (fun x => hk x.2), hl]
  · intro hmr hmd
    rw [v.attr m _ (by decide)]
    show (if m = .str (qual ns r) ∧ "metadata" = "metadata" then some (Val.dict []) else lastWrite m "metadata" (urmlCalls ns tokenize doc)) = _
    rw [if_neg (fun x => hmr (x.1.trans v.root.symm)), hl]
    exact (find_eq_none_iff _ _).2 hmd
  · intro l
    rw [v.layer]
    show ((∃ i ∈ urmlCalls ns tokenize doc, i.GivesLayer m l) ∨ (Implicit m (urmlCalls ns tokenize doc) ∧ l = .str ns)) ↔ _
    constructor
    · rintro (⟨i, hi, hx⟩ | ⟨_, rfl⟩)
      · cases i with
        | node n ls' d' =>
          obtain ⟨rfl, hx⟩ := hx
          rwa [(urml_unique h hm hi).1] at hx
        | edge => cases hx
        | attr => cases hx
        | token => cases hx
        | sentence => cases hx
      · exact List.mem_map.2 ⟨ns, hns, rfl⟩
    · intro hx
      exact .inl ⟨_, hm, rfl, hx⟩

/-- **C60 (segments)**.  A segment node has its text, without surrounding white space, a label and the layers `ns` and `ns:segment`; nothing else (except for the metadata, if it is the root).  The text of a segment with `<sign>` elements is the sequence of their texts, joined by spaces. -/
theorem c60_segment (name : Option String) (ns : String) (tokenize precedence : Bool) (doc : UrmlDoc) (h : doc.Ok) (g : DG) (edus : List NodeId) (hread : urmlRead name ns tokenize precedence doc = .ok (g, edus)) (s : UrmlSeg) (hs : s ∈ doc.segments) :
    (∃ t, g.nodeAttr (.str (qual ns s.id)) (qual ns "text") = some (strVal t) ∧ Trimmed isUniSpace (if s.signs = [] then s.text.getD [] else joinChars [' '] (s.signs.filterMap (fun t => t))) t ∧
      (tokenize = false → (∀ x ∈ doc.roles, x.2 = s.id → x.1 = .nucleus) → (∃ x ∈ doc.roles, x.2 = s.id) → g.nodeAttr (.str (qual ns s.id)) "label" = some (.atom (.str ("[n]:" ++ s.id ++ ": " ++ String.ofList (t.take 20) ++ "...")))) ∧
      (tokenize = false → (∀ x ∈ doc.roles, x.2 = s.id → x.1 = .satellite) → (∃ x ∈ doc.roles, x.2 = s.id) → g.nodeAttr (.str (qual ns s.id)) "label" = some (.atom (.str ("[s]:" ++ s.id ++ ": " ++ String.ofList (t.take 20) ++ "...")))) ∧
      (tokenize = false → (∀ x ∈ doc.roles, x.2 ≠ s.id) → g.nodeAttr (.str (qual ns s.id)) "label" = some (.atom (.str ("[i]:" ++ s.id ++ ": " ++ String.ofList (t.take 20) ++ "..."))))) ∧
    (tokenize = true → (∀ x ∈ doc.roles, x.2 = s.id → x.1 = .nucleus) → (∃ x ∈ doc.roles, x.2 = s.id) → g.nodeAttr (.str (qual ns s.id)) "label" = some (.atom (.str ("[n]:" ++ ns ++ ":segment:" ++ s.id)))) ∧
    (tokenize = true → (∀ x ∈ doc.roles, x.2 = s.id → x.1 = .satellite) → (∃ x ∈ doc.roles, x.2 = s.id) → g.nodeAttr (.str (qual ns s.id)) "label" = some (.atom (.str ("[s]:" ++ ns ++ ":segment:" ++ s.id)))) ∧
    (tokenize = true → (∀ x ∈ doc.roles, x.2 ≠ s.id) → g.nodeAttr (.str (qual ns s.id)) "label" = some (.atom (.str ("[i]:" ++ ns ++ ":segment:" ++ s.id)))) ∧
    (∀ k, k ≠ qual ns "text" → k ≠ "label" → k ≠ "layers" → (k = "metadata" → g.root ≠ .str (qual ns s.id)) → g.nodeAttr (.str (qual ns s.id)) k = none) ∧
    ∀ l, g.NodeLayer (.str (qual ns s.id)) l ↔ l = .str ns ∨ l = .str (qual ns "segment") := by
  have q : ∀ b : String, ':' ∉ b.toList → ∀ a, qual ns a ≠ b := fun b hb a => qual_ne_plain hb
  have hk : ∀ b, ':' ∉ b.toList → b ≠ "label" → b ∉ keys (urmlSegAttrs ns tokenize doc s) := by
    intro b hb hb'
    simp only [urmlSegAttrs, keys, List.map_cons, List.map_nil, List.mem_cons, List.not_mem_nil, or_false, not_or]
    exact ⟨fun e => q b hb _ e.symm, hb'⟩
  obtain ⟨h1, h2, h3⟩ := urml_attr h hread (mem_urml_nodes.2 (.inl ⟨s, hs, rfl, rfl, rfl⟩)) (by simp)
  have hlabel : g.nodeAttr (.str (qual ns s.id)) "label" = some (.atom (.str (urmlSegmentLabel s.id (urmlSegmentType doc s.id) (urmlText s) ns tokenize))) := by
    rw [h1 _ (by decide) (by decide)]
    simp [urmlSegAttrs, find, q "label" (by decide)]
  have hrole : ∀ role, (∀ x ∈ doc.roles, x.2 = s.id → x.1 = role) → (∃ x ∈ doc.roles, x.2 = s.id) → urmlSegmentType doc s.id = match role with | .nucleus => ['n', 'u', 'c', 'l', 'e', 'u', 's'] | .satellite => ['s', 'a', 't', 'e', 'l', 'l', 'i', 't', 'e'] := by
    intro role ha ⟨x, hx, hxs⟩
    unfold urmlSegmentType
    cases hy : (doc.roles.filter (fun r => r.2 = s.id)).getLast? with
    | none =>
      rw [List.getLast?_eq_none_iff] at hy
      have : x ∈ doc.roles.filter (fun r => r.2 = s.id) := List.mem_filter.2 ⟨hx, by simpa using hxs⟩
      rw [hy] at this
      cases this
    | some y =>
      have hym := List.mem_filter.1 (List.mem_of_getLast? hy)
      have : y.1 = role := ha y hym.1 (by simpa using hym.2)
      obtain ⟨y1, y2⟩ := y
      subst this
      cases y1 <;> rfl
  have hiso : (∀ x ∈ doc.roles, x.2 ≠ s.id) → urmlSegmentType doc s.id = ['i', 's', 'o', 'l', 'a', 't', 'e', 'd'] := by
    intro ha
    unfold urmlSegmentType
    rw [List.filter_eq_nil_iff.2 (by intro x hx; simpa using ha x hx)]
    rfl
  have hl1 : ∀ c cs t, urmlSegmentLabel s.id (c :: cs) t ns false = String.ofList ['[', c, ']', ':'] ++ s.id ++ ": " ++ String.ofList (t.take 20) ++ "..." := by
    intro c cs t
    apply String.toList_inj.1
    simp [urmlSegmentLabel]
  have hl2 : ∀ c cs t, urmlSegmentLabel s.id (c :: cs) t ns true = String.ofList ['[', c, ']', ':'] ++ ns ++ ":segment:" ++ s.id := by
    intro c cs t
    simp [urmlSegmentLabel]
  refine ⟨⟨urmlText s, ?_, ?_, ?_, ?_, ?_⟩, ?_, ?_, ?_, ?_, ?_⟩
  · rw [h1 _ (q _ (by decide) _) (q _ (by decide) _)]
    simp [urmlSegAttrs]
  · unfold urmlText
    cases hsg : s.signs with
    | nil =>
      simp only [if_true]
      cases s.text with
      | none => exact ⟨[], [], rfl, by simp, by simp, by simp [sanitizeString], by simp [sanitizeString]⟩
      | some t => exact stripUni_stripped t
    | cons x xs =>
      simp only [reduceCtorEq, if_false]
      exact stripUni_stripped _
  · rintro rfl ha hx
    rw [hlabel, hrole .nucleus ha hx, hl1]
  · rintro rfl ha hx
    rw [hlabel, hrole .satellite ha hx, hl1]
  · rintro rfl ha
    rw [hlabel, hiso ha, hl1]
  · rintro rfl ha hx
    rw [hlabel, hrole .nucleus ha hx, hl2]
  · rintro rfl ha hx
    rw [hlabel, hrole .satellite ha hx, hl2]
  · rintro rfl ha
    rw [hlabel, hiso ha, hl2]
  · intro k hk1 hk2 hk3 hk4
    by_cases hkm : k = "metadata"
    · rw [hkm]
      exact h2 (fun e => hk4 hkm e.symm) (hk _ (by decide) (by decide))
    · rw [h1 k hkm hk3]
      simp [urmlSegAttrs, find, Ne.symm hk1, Ne.symm hk2]
  · intro l
    rw [h3]
    simp

/-- **C60 (relations)**.  A relation node has the name and the type of the relation and the layers `ns` and `ns:relation`; nothing else (in particular no label; except for the metadata, if it is the root). -/
theorem c60_relation (name : Option String) (ns : String) (tokenize precedence : Bool) (doc : UrmlDoc) (h : doc.Ok) (g : DG) (edus : List NodeId) (hread : urmlRead name ns tokenize precedence doc = .ok (g, edus)) (r : UrmlRel) (hr : r ∈ doc.relations) :
    g.nodeAttr (.str (qual ns r.id)) (qual ns "rel_name") = some (strVal r.type) ∧
    g.nodeAttr (.str (qual ns r.id)) (qual ns "rel_type") = some (.atom (.str (if r.par then "parRelation" else "hypRelation"))) ∧
    (∀ k, k ≠ qual ns "rel_name" → k ≠ qual ns "rel_type" → k ≠ "layers" → (k = "metadata" → g.root ≠ .str (qual ns r.id)) → g.nodeAttr (.str (qual ns r.id)) k = none) ∧
    ∀ l, g.NodeLayer (.str (qual ns r.id)) l ↔ l = .str ns ∨ l = .str (qual ns "relation") := by
  have q : ∀ b : String, ':' ∉ b.toList → ∀ a, qual ns a ≠ b := fun b hb a => qual_ne_plain hb
  have hk : ∀ b, ':' ∉ b.toList → b ∉ keys (urmlNodeAttrs ns r) := by
    intro b hb
    simp only [urmlNodeAttrs, keys, List.map_cons, List.map_nil, List.mem_cons, List.not_mem_nil, or_false, not_or]
    exact ⟨fun e => q b hb _ e.symm, fun e => q b hb _ e.symm⟩
  obtain ⟨h1, h2, h3⟩ := urml_attr h hread (mem_urml_nodes.2 (.inr (.inl ⟨r, hr, rfl, rfl, rfl⟩))) (by simp)
  refine ⟨?_, ?_, ?_, ?_⟩
  · rw [h1 _ (q _ (by decide) _) (q _ (by decide) _)]
    simp [urmlNodeAttrs]
  · rw [h1 _ (q _ (by decide) _) (q _ (by decide) _)]
    simp [urmlNodeAttrs, find, qual_lit]
  · intro k hk1 hk2 hk3 hk4
    by_cases hkm : k = "metadata"
    · rw [hkm]
      exact h2 (fun e => hk4 hkm e.symm) (hk _ (by decide))
    · rw [h1 k hkm hk3]
      simp [urmlNodeAttrs, find, Ne.symm hk1, Ne.symm hk2]
  · intro l
    rw [h3]
    simp

/-- **C60 (undeclared arguments)**.  An argument of a relation that is neither a segment nor a relation of the document becomes a node without text, with the layer `ns` only. -/
theorem c60_undeclared (name : Option String) (ns : String) (tokenize precedence : Bool) (doc : UrmlDoc) (h : doc.Ok) (g : DG) (edus : List NodeId) (hread : urmlRead name ns tokenize precedence doc = .ok (g, edus)) (a : String) (ha : a ∈ doc.argIds) (hna : a ∉ doc.ids) :
    g.HasNode (.str (qual ns a)) ∧ (∀ k, k ≠ "layers" → (k = "metadata" → g.root ≠ .str (qual ns a)) → g.nodeAttr (.str (qual ns a)) k = none) ∧ ∀ l, g.NodeLayer (.str (qual ns a)) l ↔ l = .str ns := by
  obtain ⟨_, _, r, _, v⟩ := urmlRead_content h hread
  have inj : ∀ {a b : String}, NodeId.str (qual ns a) = .str (qual ns b) → a = b := by
    intro a b e
    injection e with e
    exact qual_inj e
  have hno : ∀ ls d, Instr.node (.str (qual ns a)) ls d ∉ urmlCalls ns tokenize doc := by
    intro ls d hx
    rcases mem_urml_nodes.1 hx with ⟨s, hs, e, _⟩ | ⟨s, hs, e, _⟩ | ⟨s, hs, e, _⟩
    · exact hna (List.mem_append_left _ (List.mem_map.2 ⟨s, hs, (inj e).symm⟩))
    · exact hna (List.mem_append_right _ (List.mem_map.2 ⟨s, hs, (inj e).symm⟩))
    · exact h.tok_fresh hs (List.mem_append_right _ (inj e ▸ ha))
  have hhas : ((urmlView ns tokenize doc (urmlPrec ns tokenize precedence doc r) r)).has (.str (qual ns a)) := ⟨a, .inr (.inl ha), rfl⟩
  refine ⟨(v.nodes _).2 hhas, ?_, ?_⟩
  · intro k hk hk2
    rw [v.attr _ k hk]
    show (if NodeId.str (qual ns a) = .str (qual ns r) ∧ k = "metadata" then some (Val.dict []) else lastWrite (.str (qual ns a)) k (urmlCalls ns tokenize doc)) = _
    rw [if_neg (fun x => hk2 x.2 (v.root.trans x.1.symm))]
    apply lastWrite_none
    intro i hi
    cases i with
    | node n ls d =>
      simp only [Instr.write]
      rw [if_neg]
      intro e
      subst e
      exact hno ls d hi
    | attr => exact ((urmlCalls_ok ns tokenize doc _ hi).1).elim
    | edge => rfl
    | token => rfl
    | sentence => rfl
  · intro l
    rw [v.layer]
    show ((∃ i ∈ urmlCalls ns tokenize doc, i.GivesLayer _ l) ∨ (Implicit _ (urmlCalls ns tokenize doc) ∧ l = .str ns)) ↔ _
    constructor
    · rintro (⟨i, hi, hx⟩ | ⟨_, rfl⟩)
      · cases i with
        | node n ls' d' =>
          obtain ⟨rfl, hx⟩ := hx
          exact (hno _ _ hi).elim
        | edge => cases hx
        | attr => cases hx
        | token => cases hx
        | sentence => cases hx
      · rfl
    · rintro rfl
      refine .inr ⟨?_, rfl⟩
      have hm : ∃ i ∈ urmlCalls ns tokenize doc, i.Mentions (.str (qual ns a)) := (urmlCalls_mentions ns tokenize doc h.rels _).2 ⟨a, .inr (.inl ha), rfl⟩
      have key : ∀ s : List Instr, (∀ ls d, Instr.node (.str (qual ns a)) ls d ∉ s) → (∃ i ∈ s, i.Mentions (.str (qual ns a))) → Implicit (.str (qual ns a)) s := by
        intro s
        induction s with
        | nil => rintro _ ⟨i, hi, _⟩; cases hi
        | cons j s ih =>
          intro hn ⟨i, hi, him⟩
          by_cases hj : j.Mentions (.str (qual ns a))
          · refine .inl ⟨hj, ?_⟩
            cases j with
            | node n ls d =>
              have : NodeId.str (qual ns a) = n := hj
              subst this
              exact (hn ls d (.head _)).elim
            | edge => trivial
            | attr => cases hj
            | token => cases hj
            | sentence => cases hj
          · refine .inr ⟨hj, ih (fun ls d hx => hn ls d (.tail _ hx)) ?_⟩
            rcases List.mem_cons.1 hi with rfl | hi
            · exact (hj him).elim
            · exact ⟨i, hi, him⟩
      exact key _ hno hm

/-! ### tokens and edges -/

/-- **C60 (tokens)**.  The list of tokens contains the tokens of the segments in document order, once each.  The tokens of a segment with `<sign>` elements are their texts; otherwise, if the text is to be tokenized, the words of its text.  A token node carries its word as `ns:token` and as label, and the layers `ns` and `ns:token`; get_tokens yields the tokens with their words. -/
theorem c60_tokens (name : Option String) (ns : String) (tokenize precedence : Bool) (doc : UrmlDoc) (h : doc.Ok) (g : DG) (edus : List NodeId) (hread : urmlRead name ns tokenize precedence doc = .ok (g, edus)) :
    g.tokens = (doc.tokens tokenize).map (fun t => .str (qual ns t.1)) ∧ g.tokens.Nodup ∧
    (∀ s ∈ doc.segments, s.tokens tokenize = (s.words tokenize).zipIdx.map (fun w => (s.id ++ String.ofList (['_'] ++ decimal w.2), w.1)) ∧
      (s.signs ≠ [] → s.words tokenize = s.signs) ∧ (s.signs = [] → tokenize = false → s.words tokenize = []) ∧
      (s.signs = [] → tokenize = true → ∃ ws, s.words tokenize = ws.map some ∧ Words isUniSpace (s.text.getD []) ws)) ∧
    g.getTokens = ((doc.tokens tokenize).map (fun t => (.str (qual ns t.1), optVal t.2)), none) ∧
    ∀ t ∈ doc.tokens tokenize, g.nodeAttr (.str (qual ns t.1)) (qual ns "token") = some (optVal t.2) ∧ g.nodeAttr (.str (qual ns t.1)) "label" = some (optVal t.2) ∧
      (∀ l, g.NodeLayer (.str (qual ns t.1)) l ↔ l = .str ns ∨ l = .str (qual ns "token")) := by
  obtain ⟨_, _, r, _, v⟩ := urmlRead_content h hread
  have q : ∀ b : String, ':' ∉ b.toList → ∀ a, qual ns a ≠ b := fun b hb a => qual_ne_plain hb
  have htok : g.tokens = (doc.tokens tokenize).map (fun t => .str (qual ns t.1)) := v.tokens
  have hat : ∀ t ∈ doc.tokens tokenize, g.nodeAttr (.str (qual ns t.1)) (qual ns "token") = some (optVal t.2) ∧ g.nodeAttr (.str (qual ns t.1)) "label" = some (optVal t.2) ∧
      (∀ l, g.NodeLayer (.str (qual ns t.1)) l ↔ l = .str ns ∨ l = .str (qual ns "token")) := by
    intro t ht
    obtain ⟨h1, _, h3⟩ := urml_attr h hread (mem_urml_nodes.2 (.inr (.inr ⟨t, ht, rfl, rfl, rfl⟩))) (by simp)
    refine ⟨?_, ?_, ?_⟩
    · rw [h1 _ (q _ (by decide) _) (q _ (by decide) _)]
      simp [urmlTokAttrs]
    · rw [h1 _ (by decide) (by decide)]
      simp [urmlTokAttrs, find, q "label" (by decide)]
    · intro l
      rw [h3]
      simp
  refine ⟨htok, ?_, ?_, ?_, hat⟩
  · rw [htok]
    have := urmlTokens_nodup (tokenize := tokenize) h.seg_ids
    have h2 : (doc.tokens tokenize).map (fun t => NodeId.str (qual ns t.1)) = ((doc.tokens tokenize).map Prod.fst).map (fun a => NodeId.str (qual ns a)) := by simp [List.map_map, Function.comp_def]
    rw [h2]
    refine this.map ?_
    intro a b e
    injection e with e
    exact qual_inj e
  · intro s _
    refine ⟨rfl, ?_, ?_, ?_⟩
    · intro hx; simp [UrmlSeg.words, hx]
    · intro hx ht; simp [UrmlSeg.words, hx, ht]
    · intro hx ht
      refine ⟨splitWs (s.text.getD []), by simp [UrmlSeg.words, hx, ht], ?_⟩
      rw [splitWs_splitBy]
      exact splitBy_words _ _
  · unfold getTokens
    rw [htok]
    have key : ∀ ts : List (String × Option (List Char)), (∀ t ∈ ts, t ∈ doc.tokens tokenize) → Gen.collect (fun t => match g.getToken t with
        | .ok v => .ok (some (t, v))
        | .error e => .error e) (ts.map (fun t => NodeId.str (qual ns t.1))) = (ts.map (fun t => (NodeId.str (qual ns t.1), optVal t.2)), none) := by
      intro ts
      induction ts with
      | nil => intro _; rfl
      | cons t ts ih =>
        intro hts
        have hg : g.getToken (.str (qual ns t.1)) = .ok (optVal t.2) := by
          unfold getToken
          rw [v.ns]
          exact getAttr_ok.2 (hat t (hts t (by simp))).1
        have := ih (fun t ht => hts t (by simp [ht]))
        simp only [List.map_cons]
        unfold Gen.collect
        simp only [hg, this]
    exact key _ (fun _ h => h)

/-- **C60 (edges)**.  The edges are: from each segment to its tokens (spans); from a paratactic relation to each of its nuclei (spans); from a hypotactic relation to its nucleus and from the nucleus to the satellite (dominates), where the edges of a relation carry its name and type; if wanted, the precedence edges from the root to the first token and from each token to the next one.  There are no other edges. -/
theorem c60_edges (name : Option String) (ns : String) (tokenize precedence : Bool) (doc : UrmlDoc) (h : doc.Ok) (g : DG) (edus : List NodeId) (hread : urmlRead name ns tokenize precedence doc = .ok (g, edus)) :
    EdgesAre g (urmlEdges ns tokenize doc ++ if tokenize ∧ precedence then precEdges ns g.root g.tokens else []) := by
  obtain ⟨_, _, r, _, v⟩ := urmlRead_content h hread
  have := v.edges
  rw [v.root, v.tokens]
  exact this

/-! ### the root -/

theorem longest_named {tokenize : Bool} {doc : UrmlDoc} {a : String} (h : doc.LongestFrom tokenize a) : ∃ b, doc.Link tokenize a b := by
  obtain ⟨q, hq, hc, _⟩ := h
  cases q with
  | nil => exact (hq rfl).elim
  | cons x q =>
    rw [List.isChain_cons_cons] at hc
    exact ⟨x, hc.1⟩

theorem longest_top {tokenize : Bool} {doc : UrmlDoc} {a : String} (h : doc.LongestFrom tokenize a) : ∀ b, ¬ doc.Link tokenize b a := by
  obtain ⟨q, hq, hc, hmax⟩ := h
  intro b hb
  have := hmax b (a :: q) (by rw [List.isChain_cons_cons]; exact ⟨hb, hc⟩)
  rw [List.length_cons] at this
  omega

theorem link_source {tokenize : Bool} {doc : UrmlDoc} (hr : ∀ r ∈ doc.relations, r.Ok) {a b : String} (h : doc.Link tokenize a b) : a ∈ doc.ids ++ doc.argIds := by
  rcases List.mem_append.1 h with h | h
  · obtain ⟨s, hs, h⟩ := List.mem_flatMap.1 h
    obtain ⟨t, ht, h⟩ := List.mem_map.1 h
    cases h
    exact List.mem_append_left _ (List.mem_append_left _ (List.mem_map.2 ⟨s, hs, rfl⟩))
  · obtain ⟨r, hrm, h⟩ := List.mem_flatMap.1 h
    obtain ⟨h1, _⟩ := rel_links_named (hr r hrm) h
    rcases h1 with h1 | h1
    · exact List.mem_append_left _ (List.mem_append_right _ (List.mem_map.2 ⟨r, hrm, h1.symm⟩))
    · exact List.mem_append_right _ (List.mem_flatMap.2 ⟨r, hrm, h1⟩)

/-- **C60 (root)**.  The root of the graph is the origin of a longest path; it carries the metadata and has no incoming edge.  The default root node does not exist any more. -/
theorem c60_root (name : Option String) (ns : String) (tokenize precedence : Bool) (doc : UrmlDoc) (h : doc.Ok) (g : DG) (edus : List NodeId) (hread : urmlRead name ns tokenize precedence doc = .ok (g, edus)) :
    (∃ r, g.root = .str (qual ns r) ∧ doc.LongestFrom tokenize r) ∧ g.nodeAttr g.root "metadata" = some (.dict []) ∧ (∀ u, g.edgeCount u g.root = 0) ∧ g.HasNode g.root ∧ ¬ g.HasNode (docRoot ns) := by
  obtain ⟨_, _, r, hl, v⟩ := urmlRead_content h hread
  have inj : ∀ {a b : String}, NodeId.str (qual ns a) = .str (qual ns b) → a = b := by
    intro a b e
    injection e with e
    exact qual_inj e
  have hroot : g.root = .str (qual ns r) := v.root
  obtain ⟨b, hb⟩ := longest_named hl
  refine ⟨⟨r, hroot, hl⟩, ?_, ?_, ?_, ?_⟩
  · rw [v.attr _ _ (by decide), hroot]
    simp [urmlView]
  · intro u
    refine (c60_edges name ns tokenize precedence doc h g edus hread).untouched ?_ u
    intro e he ht
    rw [hroot] at ht
    rcases List.mem_append.1 he with he | he
    · have : (e.source, e.target) ∈ (doc.links tokenize).map (fun l => ((.str (qual ns l.1), .str (qual ns l.2)) : NodeId × NodeId)) := by
        rw [← urmlEdges_links]
        exact List.mem_map.2 ⟨e, he, rfl⟩
      obtain ⟨l, hlm, hle⟩ := List.mem_map.1 this
      simp only [Prod.mk.injEq] at hle
      rw [← hle.2] at ht
      exact longest_top hl l.1 (inj ht ▸ hlm)
    · split at he
      · obtain ⟨p, hp, rfl⟩ := List.mem_map.1 he
        have hp2 : p.2 ∈ g.tokens := (List.of_mem_zip hp).2
        rw [show g.tokens = (doc.tokens tokenize).map (fun t => NodeId.str (qual ns t.1)) from v.tokens] at hp2
        obtain ⟨t, htm, hte⟩ := List.mem_map.1 hp2
        have : t.1 = r := inj (hte.trans ht)
        exact h.tok_fresh htm (this ▸ link_source h.rels hb)
      · cases he
  · rw [v.nodes, hroot]
    exact ⟨r, (link_named h.rels hb).1, rfl⟩
  · rw [v.nodes]
    exact root_unnamed h.root

end DG
end Dg
