import Verif.Spec.ExportXml
import Verif.Lemmas.CondCalls
import Verif.Lemmas.Tiger
import Verif.Lemmas.Text
import Verif.Lemmas.DisGraph
import Verif.Lemmas.ConllScript
import Verif.Lemmas.TigerRepair
import Verif.Lemmas.Chains
import Mathlib.Tactic.Tauto

/-! Reading an ExportXML document: the calls. -/

namespace Dg
open Dict

/-! ### IDs -/

theorem splitChars_head (c : Char) (cs : List Char) : (splitChars c cs).headD [] = cs.takeWhile (fun x => decide (x ≠ c)) := by
  induction cs with
  | nil => rfl
  | cons x cs ih =>
    have hne := splitChars_ne_nil c cs
    unfold splitChars
    by_cases h : x = c
    · simp [h]
    · cases hs : splitChars c cs with
      | nil => exact absurd hs hne
      | cons a b =>
        rw [hs] at ih
        simp only [List.headD_cons] at ih
        simp [h, ih]

theorem idPrefix_eq (s : String) : idPrefix s = beforeUnderscore s := by
  unfold idPrefix beforeUnderscore
  rw [splitChars_head]

variable {r : XRow}

theorem XRow.Ok.hasId (h : XRow.Ok r) : ∃ i, r.2.id.or (r.1.head?.bind XElem.id) = some i := by
  rcases h.tag with ⟨_, h1⟩ | ⟨_, h1, p, rest, i, h2, h3⟩
  · cases hi : r.2.id with
    | none => exact absurd hi h1
    | some i => exact ⟨i, rfl⟩
  · exact ⟨i, by rw [h1, h2]; simpa using h3⟩

theorem expElementId_eq (h : XRow.Ok r) : expElementId r = .ok (XRow.own r) := by
  unfold expElementId XRow.own
  rcases h.tag with ⟨_, h1⟩ | ⟨_, h1, p, rest, i, h2, h3⟩
  · cases hi : r.2.id with
    | none => exact absurd hi h1
    | some i => rfl
  · rw [h1, h2]
    simp [h3]

theorem own_of_id {i : String} (h : r.2.id = some i) : XRow.own r = i := by
  unfold XRow.own; rw [h]; rfl

theorem elementId_of_id {i : String} (h : r.2.id = some i) : expElementId r = .ok i := by
  unfold expElementId; rw [h]

/-- the ancestors that can be parents have IDs -/
def AncIds (anc : List XElem) : Prop := ∀ a ∈ anc, a.tag ∈ ["node", "sentence"] → a.id ≠ none

theorem expAncestor_eq (tags : List String) : ∀ anc : List XElem, (expAncestor tags anc).map Prod.snd = anc.find? (fun a => decide (a.tag ∈ tags))
  | [] => rfl
  | a :: rest => by
    unfold expAncestor
    rw [List.find?_cons]
    by_cases h : a.tag ∈ tags
    · simp [h]
    · simp [h, expAncestor_eq tags rest]

theorem closest_ok {tags : List String} (ht : ∀ t ∈ tags, t ∈ ["node", "sentence"]) (h : AncIds r.1) {s : XRow} (hs : expAncestor tags r.1 = some s) : ∃ i, s.2.id = some i ∧ XRow.closest tags r = some i := by
  have h1 := expAncestor_eq tags r.1
  rw [hs] at h1
  have h2 := h1.symm
  simp only [Option.map_some] at h2
  have hm := List.mem_of_find?_eq_some h2
  have hp := List.find?_some h2
  have ht' := ht _ (of_decide_eq_true hp)
  cases hi : s.2.id with
  | none => exact absurd hi (h _ hm ht')
  | some i =>
    refine ⟨i, rfl, ?_⟩
    unfold XRow.closest
    rw [h2]; exact hi

theorem closest_none {tags : List String} (hs : expAncestor tags r.1 = none) : XRow.closest tags r = none := by
  have h1 := expAncestor_eq tags r.1
  rw [hs] at h1
  unfold XRow.closest
  rw [← h1]; rfl

theorem nodeParent_eq (ho : XRow.Ok r) (h : AncIds r.1) : expNodeParent r = .ok (XRow.nodeParent r) := by
  unfold expNodeParent XRow.nodeParent
  cases hp : find r.2.attrs "parent" with
  | some p => simp only [expParentId, hp]; rfl
  | none =>
    show expSentenceId r = _
    unfold expSentenceId
    cases hs : expAncestor ["sentence"] r.1 with
    | some s =>
      obtain ⟨i, h1, h2⟩ := closest_ok (by simp) h hs
      simp only [Option.getD_none, h2, Option.getD_some]
      exact elementId_of_id h1
    | none =>
      rw [closest_none hs]
      simp only [expElementId_eq ho, idPrefix_eq]
      rfl

theorem wordParent_eq (ho : XRow.Ok r) (h : AncIds r.1) (hne : r.1 ≠ []) : expWordParent r = .ok (XRow.wordParent r) := by
  unfold expWordParent XRow.wordParent
  cases ha : r.1 with
  | nil => exact absurd ha hne
  | cons p rest =>
    have hc : ∀ ht : p.tag ∈ ["node", "sentence"], ∃ i, p.id = some i ∧ XRow.closest ["node", "sentence"] r = some i := by
      intro ht
      cases hi : p.id with
      | none => exact absurd hi (h p (by rw [ha]; simp) ht)
      | some i =>
        refine ⟨i, rfl, ?_⟩
        unfold XRow.closest
        rw [ha, List.find?_cons]
        simp only [ht, decide_true]
        exact hi
    dsimp only
    by_cases ht : p.tag ∈ ["node", "sentence"]
    · obtain ⟨i, h1, h2⟩ := hc ht
      rw [if_pos ht, if_pos (by simpa using ht)]
      unfold expParentId
      rw [h2, ha]
      cases hp : find r.2.attrs "parent" with
      | some q => rfl
      | none => simp only [h1]; rfl
    · rw [if_neg ht, if_neg (by simpa using ht)]
      rw [← ha]
      cases hs : expAncestor ["node", "sentence"] r.1 with
      | some s =>
        obtain ⟨i, h1, h2⟩ := closest_ok (by simp) h hs
        simp only [Option.getD_none, h2, Option.getD_some]
        exact elementId_of_id h1
      | none =>
        rw [closest_none hs]
        simp only [expElementId_eq ho, idPrefix_eq]
        rfl

end Dg

namespace Dg
open Dict
namespace DG

/-! ### steps -/

/-- what is known about the graph while the document is read -/
structure ExpState (ns : String) (root : NodeId) (has : NodeId → Prop) (g : DG) : Prop where
  inv : Inv g
  layered : NodesLayered False g
  ns : g.ns = ns
  root : g.root = root
  has : ∀ m, has m → g.HasNode m

variable {ns : String} {root : NodeId} {has : NodeId → Prop} {g : DG}

theorem ExpState.after (h : ExpState ns root has g) {s : List Instr} (hs : ScriptOk has s) : ∃ g', execs g s = .ok g' ∧ ExpState ns root (fun m => has m ∨ ∃ i ∈ s, i.Mentions m) g' ∧ Built g s g' := by
  obtain ⟨g', e, b⟩ := execs_built s h.inv h.layered (scriptOk_mono h.has hs)
  exact ⟨g', e, ⟨b.inv, b.layered, b.ns.trans h.ns, b.root.trans h.root, fun m hm => (b.nodes m).2 (hm.imp (h.has m) id)⟩, b⟩

/-- one call after the other -/
theorem ExpState.step (h : ExpState ns root has g) {f : Except PyErr DG} {k : DG → Except PyErr DG} {s s' : List Instr} (hf : f = execs g s) (hs : ScriptOk has s)
    (hk : ∀ g', ExpState ns root (fun m => has m ∨ ∃ i ∈ s, i.Mentions m) g' → k g' = execs g' s') : (f >>= k) = execs g (s ++ s') := by
  obtain ⟨g', e, st, _⟩ := h.after hs
  rw [hf, execs_append, e]
  exact hk g' st

/-- one call after the other, with a single call first -/
theorem ExpState.one (h : ExpState ns root has g) {f : Except PyErr DG} {k : DG → Except PyErr DG} {i : Instr} {s' : List Instr} (hf : f = i.exec g) (hs : i.Ok has)
    (hk : ∀ g', ExpState ns root (fun m => has m ∨ i.Mentions m) g' → k g' = execs g' s') : (f >>= k) = execs g (i :: s') := by
  refine h.step (s := [i]) (by rw [hf, execs_one]) ⟨hs, trivial⟩ ?_
  intro g' st
  refine hk g' ⟨st.inv, st.layered, st.ns, st.root, fun m hm => st.has m ?_⟩
  simpa using hm

theorem setUnion_one (xs : List Atom) (l : Atom) : setUnion xs [l] = setAdd xs l := by
  unfold setUnion setAdd
  by_cases h : l ∈ xs <;> simp [h]

/-- `add_layer` for an existing node is `add_node` with this layer -/
theorem addLayer_eq (h : ExpState ns root has g) {n : NodeId} (hn : has n) (l : String) : batch (g.addLayer (.node n) (.atom (.str l))) = (Instr.node n [l] []).exec g := by
  obtain ⟨a, ha⟩ := (hasNode_some g n).1 (h.has n hn)
  have ha : find g.nodes n = some a := ha
  obtain ⟨xs, e1, _, _⟩ := h.layered n a ha
  have hc : g.checkLayers (.set [.str l]) = .ok [.str l] := checkLayers_strs g (ls := [l]) (by simp)
  simp only [Instr.exec, addNode, addLayer, hc, bind, Except.bind, mergeAttrArg, ha, layerSet, e1, batch, List.map_cons, List.map_nil, setUnion_one]
  simp [put, upd, del]

/-! ### the calls -/

/-- the edges of an element as calls -/
abbrev edgePart (o : ExpOpts) (ns : String) (root : NodeId) (r : XRow) : List Instr := edgeCalls (XRow.edges o ns root r)

/-- the list of the IDs as attribute value -/
def idsVal (l : List String) : Val := .list (l.map Atom.str)

theorem idListVal_eq (l : List String) : idListVal (l.map NodeId.str) = idsVal l := by
  unfold idListVal idsVal
  simp [Function.comp_def, tigerSentence2graph.idAtom]

/-- the tokens of a sentence -/
def sentIds (r : XRow) : List String :=
  match find r.2.attrs "span" with
  | some s => (convertSpanstring s).toOption.getD []
  | none => XRow.inside r "word"

/-- the calls for an element -/
def expCalls (o : ExpOpts) (ns : String) (root : NodeId) (r : XRow) : List Instr :=
  let n := NodeId.str (XRow.own r)
  let feats := xmlAttrs ns r.2.attrs
  if r.2.tag = "connective" then
    [.node n [qual ns "connective"] [], .attr n "connective" (.dict ((r.2.attrs.filter (fun kv => decide (kv.1 ≠ "konn"))).map (fun kv => (kv.1, Atom.str kv.2))))]
  else if r.2.tag = "discRel" then
    if o.relations then [] else feats.map (fun kv => .attr n kv.1 kv.2) ++ (.node n [qual ns "discourse"] [] :: .node n [qual ns "relation"] [] :: edgePart o ns root r)
  else if r.2.tag = "edu" then .node n [ns, qual ns "edu"] feats :: (edgePart o ns root r ++ [.attr n "tokens" (idsVal (XRow.inside r "word"))])
  else if r.2.tag = "edu-range" then .node n [ns, qual ns "edu:range"] feats :: edgePart o ns root r
  else if r.2.tag = "ne" then .node n [ns, qual ns "ne"] (feats ++ [("label", strV ("ne:" ++ XRow.at' r "type"))]) :: edgePart o ns root r
  else if r.2.tag = "node" then .node n [ns, qual ns "syntax"] (feats ++ [("label", strV (XRow.at' r "cat"))]) :: edgePart o ns root r
  else if r.2.tag = "relation" then
    if o.relations then [] else .attr n "relation" (strV (XRow.at' r "type")) :: .node n [qual ns (XRow.at' r "type")] [] ::
      match find r.2.attrs "target" with
      | some t => .node n [qual ns "markable"] [] :: (edgePart o ns root r ++ [.node (.str t) [qual ns "markable"] []])
      | none => []
  else if r.2.tag = "secEdge" then edgePart o ns root r
  else if r.2.tag = "sentence" then edgePart o ns root r ++ [.sentence n, .attr n "tokens" (idsVal (sentIds r))]
  else if r.2.tag = "splitRelation" then
    if o.relations || o.splitrelations then [] else
      .node n [ns, qual ns "relation", qual ns (XRow.at' r "type"), qual ns "markable"] [] ::
      .node (.str (XRow.targetSpan r)) [ns, qual ns "targetspan", qual ns (XRow.at' r "type"), qual ns "markable"] [] :: edgePart o ns root r
  else if r.2.tag = "topic" then .node n [ns, qual ns "topic"] [("description", strV (XRow.at' r "description"))] :: (edgePart o ns root r ++ [.attr n "tokens" (idsVal (XRow.inside r "word"))])
  else if r.2.tag = "word" then
    .token n :: .node n [ns, qual ns "token"] (upd feats [(qual ns "token", strV (XRow.at' r "form")), ("label", strV (XRow.at' r "form"))]) :: edgePart o ns root r
  else []

theorem at_ok {k : String} (h : k ∈ keys r.2.attrs) : elemAttr r.2.attrs k = .ok (XRow.at' r k) := by
  obtain ⟨v, hv⟩ := (mem_keys_iff _ _).1 h
  unfold elemAttr XRow.at'
  rw [hv]; rfl

theorem row_tags (h : XRow.Ok r) : r.2.tag = "edu" ∨ r.2.tag = "edu-range" ∨ r.2.tag = "ne" ∨ r.2.tag = "node" ∨ r.2.tag = "sentence" ∨ r.2.tag = "topic" ∨ r.2.tag = "word" ∨
    r.2.tag = "connective" ∨ r.2.tag = "discRel" ∨ r.2.tag = "relation" ∨ r.2.tag = "secEdge" ∨ r.2.tag = "splitRelation" := by
  rcases h.tag with ⟨h1, _⟩ | ⟨h1, _⟩
  · simp only [expOwners, List.mem_cons, List.not_mem_nil, or_false] at h1
    tauto
  · simp only [expNotes, List.mem_cons, List.not_mem_nil, or_false] at h1
    tauto

/-- unfold what an element with a known tag says -/
macro "row_simp" h:ident o:ident : tactic => `(tactic| simp only [expStep, XRow.edges, XRow.layers, XRow.writes, expCalls, edgePart, $h:ident, $o:ident, String.reduceEq, if_false, if_true, true_and, and_true, and_self, and_false, false_and, Bool.or_false, Bool.or_true, Bool.false_or, Bool.true_or, Bool.true_eq_false, Bool.false_eq_true, reduceCtorEq])

theorem edges_ok {o : ExpOpts} (ho : XRow.Ok r) : ∀ e ∈ XRow.edges o ns root r, e.layers ≠ [] ∧ (keys e.attrs).Nodup := by
  obtain ⟨o1, o2, o3⟩ := o
  rcases row_tags ho with h | h | h | h | h | h | h | h | h | h | h | h <;> cases o1 <;> cases o2 <;> cases o3 <;> row_simp h h
  all_goals try cases find r.2.attrs "target"
  all_goals
    intro e he
    simp only [List.mem_cons, List.mem_map, List.not_mem_nil, or_false] at he
  all_goals first
    | (subst he; simp [keys])
    | (rcases he with rfl | ⟨_, _, rfl⟩ <;> simp [keys]; done)
    | (obtain ⟨_, _, rfl⟩ := he; simp [keys])

theorem edgePart_ok {o : ExpOpts} (ho : XRow.Ok r) : ScriptOk has (edgePart o ns root r) := by
  refine scriptOk_free ?_
  intro i hi
  obtain ⟨e, he, rfl⟩ := List.mem_map.1 hi
  exact edges_ok ho e he


/-! ### each element is read by these calls -/

theorem scriptOk_free' {s : List Instr} : ∀ {has : NodeId → Prop}, (∀ i ∈ s, i.Ok has) → ScriptOk has s := by
  induction s with
  | nil => intro _ _; trivial
  | cons i s ih =>
    intro has h
    refine ⟨h i (by simp), ih fun j hj => ?_⟩
    have := h j (List.mem_cons_of_mem _ hj)
    cases j with
    | attr n k v => exact ⟨.inl this.1, this.2⟩
    | node => exact this
    | edge => exact this
    | token => trivial
    | sentence => trivial

theorem execs_edge (g : DG) (e : EdgeSpec) : execs g (edgeCalls [e]) = (Instr.edge e.source e.target e.layers e.attrs).exec g := execs_one _ _

/-- the elements inside of the element are as they should be -/
def InsideOk (r : XRow) : Prop := ∀ x ∈ r.2.descs r.1, XRow.Ok x

theorem inside_ids (hi : InsideOk r) (t : String) : mapE expElementId (XElem.descsTagged r t) = .ok (XRow.inside r t) := by
  rw [mapE_ok, XRow.inside, List.forall₂_map_right_iff, List.forall₂_same]
  intro x hx
  exact expElementId_eq (hi x (List.mem_filter.1 hx).1)

/-- the spanning edges -/
theorem spans_eq (n layer t : String) (hi : InsideOk r) (h1 : g.ns = ns) (h2 : g.root = root) : (XElem.descsTagged r t).foldlM (expSpans n layer) g =
    execs g (edgeCalls ((XRow.inside r t).map (fun w => (⟨.str n, .str w, [ns, qual ns layer], [("edge_type", strV "spans")]⟩ : EdgeSpec)))) := by
  rw [foldlM_calls (ns := ns) (r := root) (expSpans n layer) (fun x => [.edge (.str n) (.str (XRow.own x)) [ns, qual ns layer] [("edge_type", strV "spans")]]) _ ?_ g h1 h2]
  · congr 1
    unfold edgeCalls XRow.inside
    rw [List.map_map, List.map_map, List.map_eq_flatMap]
    rfl
  · intro g' x hx hn hr
    unfold expSpans
    rw [expElementId_eq (hi x (List.mem_filter.1 hx).1), execs_one, hn]
    rfl

theorem elem_connective {o : ExpOpts} (ho : XRow.Ok r) (st : ExpState ns root has g) (hn : has (.str (XRow.own r))) (h : r.2.tag = "connective") : expStep o g r = execs g (expCalls o ns root r) := by
  row_simp h h
  unfold expConnective
  have hid : r.2.id = none := by
    rcases ho.tag with ⟨h1, _⟩ | ⟨_, h1, _⟩
    · rw [h] at h1; simp [expOwners] at h1
    · exact h1
  rw [expElementId_eq ho]
  simp only [hid, List.nil_append]
  refine st.one (by rw [addLayer_eq st hn, st.ns]) (by simp [Instr.Ok, keys]) ?_
  intro g' st'
  exact updateNode_eq (st'.has _ (.inl hn))

theorem elem_discRel {o : ExpOpts} (ho : XRow.Ok r) (st : ExpState ns root has g) (hn : has (.str (XRow.own r))) (h : r.2.tag = "discRel") : expStep o g r = execs g (expCalls o ns root r) := by
  cases hr : o.relations with
  | true => row_simp h hr; simp only [expDiscrel, hr, if_true]; rfl
  | false =>
    row_simp h hr
    unfold expDiscrel
    rw [expElementId_eq ho, at_ok (ho.attrs "arg2" (by rw [h]; decide)), at_ok (ho.attrs "relation" (by rw [h]; decide))]
    simp only [hr, Bool.false_eq_true, if_false]
    refine st.step (by rw [tigerFeats_eq ho.keys, st.ns, updateNode_eq (st.has _ hn)]) ?_ ?_
    · refine scriptOk_free' ?_
      intro i hi
      obtain ⟨kv, hkv, rfl⟩ := List.mem_map.1 hi
      refine ⟨hn, ?_⟩
      intro e
      exact xmlAttrs_plain (p := ns) (d := r.2.attrs) (k := "layers") (by decide) (by rw [← e]; exact List.mem_map.2 ⟨kv, hkv, rfl⟩)
    · intro g1 s1
      refine s1.one (by rw [addLayer_eq s1 (.inl hn), s1.ns]) (by simp [Instr.Ok, keys]) ?_
      intro g2 s2
      refine s2.one (by rw [addLayer_eq s2 (.inl (.inl hn)), s2.ns]) (by simp [Instr.Ok, keys]) ?_
      intro g3 s3
      rw [s3.ns, execs_edge]
      rfl


theorem feats_ok (ho : XRow.Ok r) : (keys (xmlAttrs ns r.2.attrs)).Nodup ∧ "layers" ∉ keys (xmlAttrs ns r.2.attrs) ∧ "label" ∉ keys (xmlAttrs ns r.2.attrs) :=
  ⟨xmlAttrs_nodup ho.keys, xmlAttrs_plain (by decide), xmlAttrs_plain (by decide)⟩

theorem addNode_label (ho : XRow.Ok r) (n : NodeId) (ls : List String) (v : Val) :
    g.addNode n (.set (ls.map Atom.str)) (.dict (xmlAttrs ns r.2.attrs)) [("label", v)] = (Instr.node n ls (xmlAttrs ns r.2.attrs ++ [("label", v)])).exec g := by
  obtain ⟨_, h2, h3⟩ := feats_ok (ns := ns) ho
  refine addNode_append g n ls (by simp [keys]) ?_ h2 (by simp [keys])
  intro k hk
  simp only [keys, List.map_cons, List.map_nil, List.mem_singleton] at hk
  subst hk; exact h3

theorem label_ok (ho : XRow.Ok r) (n : NodeId) {ls : List String} (hl : ls ≠ []) (v : Val) : (Instr.node n ls (xmlAttrs ns r.2.attrs ++ [("label", v)])).Ok has := by
  obtain ⟨h1, _, h3⟩ := feats_ok (ns := ns) ho
  refine ⟨hl, ?_⟩
  unfold keys at h1 h3 ⊢
  rw [List.map_append, List.nodup_append']
  refine ⟨h1, by simp, ?_⟩
  intro k hk hk'
  simp only [List.map_cons, List.map_nil, List.mem_singleton] at hk'
  subst hk'; exact h3 hk

theorem elem_edu {o : ExpOpts} (ho : XRow.Ok r) (hi : InsideOk r) (st : ExpState ns root has g) (h : r.2.tag = "edu") : expStep o g r = execs g (expCalls o ns root r) := by
  row_simp h h
  unfold expEdu
  rw [expElementId_eq ho]
  refine st.one (by rw [tigerFeats_eq ho.keys, st.ns]; exact addNode_dict g _ [ns, qual ns "edu"] _) ⟨by simp, (feats_ok ho).1⟩ ?_
  intro g1 s1
  refine s1.step (spans_eq _ _ _ hi s1.ns s1.root) ?_ ?_
  · have := edgePart_ok (ns := ns) (root := root) (o := o) (has := fun m => has m ∨ (Instr.node (.str (XRow.own r)) [ns, qual ns "edu"] (xmlAttrs ns r.2.attrs)).Mentions m) ho
    revert this; row_simp h h; exact id
  · intro g2 s2
    rw [inside_ids hi]
    show g2.setAttr _ _ (idListVal _) = _
    rw [idListVal_eq, execs_one]; rfl

theorem elem_topic {o : ExpOpts} (ho : XRow.Ok r) (hi : InsideOk r) (st : ExpState ns root has g) (h : r.2.tag = "topic") : expStep o g r = execs g (expCalls o ns root r) := by
  row_simp h h
  unfold expTopic
  rw [expElementId_eq ho, at_ok (ho.attrs "description" (by rw [h]; decide))]
  refine st.one (by rw [st.ns]; rfl) ⟨by simp, by simp [keys]⟩ ?_
  intro g1 s1
  refine s1.step (spans_eq _ _ _ hi s1.ns s1.root) ?_ ?_
  · have := edgePart_ok (ns := ns) (root := root) (o := o) (has := fun m => has m ∨ (Instr.node (.str (XRow.own r)) [ns, qual ns "topic"] [("description", strV (XRow.at' r "description"))]).Mentions m) ho
    revert this; row_simp h h; exact id
  · intro g2 s2
    rw [inside_ids hi]
    show g2.setAttr _ _ (idListVal _) = _
    rw [idListVal_eq, execs_one]; rfl

theorem elem_eduRange {o : ExpOpts} (ho : XRow.Ok r) (hi : InsideOk r) (st : ExpState ns root has g) (h : r.2.tag = "edu-range") : expStep o g r = execs g (expCalls o ns root r) := by
  row_simp h h
  unfold expEdurange
  rw [expElementId_eq ho]
  refine st.one (by rw [tigerFeats_eq ho.keys, st.ns]; exact addNode_dict g _ [ns, qual ns "edu:range"] _) ⟨by simp, (feats_ok ho).1⟩ ?_
  intro g1 s1
  exact spans_eq _ _ _ hi s1.ns s1.root

theorem children_mem {r : XRow} {c : XElem} (hc : c ∈ r.2.children) : (r.2 :: r.1, c) ∈ r.2.descs r.1 := by
  obtain ⟨anc, t, i, a, cs⟩ := r
  show _ ∈ XElem.descs anc (.mk t i a cs)
  rw [XElem.descs]
  replace hc : c ∈ cs := hc
  show (XElem.mk t i a cs :: anc, c) ∈ _
  generalize XElem.mk t i a cs :: anc = anc'
  induction cs with
  | nil => simp at hc
  | cons x cs ih =>
    rw [XElem.descsL]
    rcases List.mem_cons.1 hc with rfl | hc
    · simp
    · exact List.mem_cons_of_mem _ (List.mem_append_right _ (ih hc))

theorem child_own (hr : r.2.id ≠ none) {c : XElem} : XRow.own (r.2 :: r.1, c) = c.id.getD (XRow.own r) := by
  unfold XRow.own
  cases hi : r.2.id with
  | none => exact absurd hi hr
  | some i => cases c.id <;> simp [hi]

theorem elem_ne {o : ExpOpts} (ho : XRow.Ok r) (hi : InsideOk r) (st : ExpState ns root has g) (h : r.2.tag = "ne") : expStep o g r = execs g (expCalls o ns root r) := by
  row_simp h h
  unfold expNe
  have hid : r.2.id ≠ none := by
    rcases ho.tag with ⟨_, h1⟩ | ⟨h1, _⟩
    · exact h1
    · rw [h] at h1; simp [expNotes] at h1
  rw [expElementId_eq ho, at_ok (ho.attrs "type" (by rw [h]; decide))]
  refine st.one (by rw [tigerFeats_eq ho.keys, st.ns]; exact addNode_label ho _ [ns, qual ns "ne"] _) (label_ok ho _ (by simp) _) ?_
  intro g1 s1
  rw [foldlM_calls (ns := ns) (r := root) _ (fun c => [.edge (.str (XRow.own r)) (.str (c.id.getD (XRow.own r))) [ns, qual ns "ne"] [("edge_type", strV "spans"), ("label", strV ("ne:" ++ XRow.at' r "type"))]]) _ ?_ g1 s1.ns s1.root]
  · congr 1
    unfold edgeCalls
    rw [List.map_map, List.map_eq_flatMap]
    rfl
  · intro g' c hc hn _
    rw [expElementId_eq (hi _ (children_mem hc)), execs_one, child_own hid, hn]
    rfl

theorem elem_node {o : ExpOpts} (ho : XRow.Ok r) (ha : AncIds r.1) (st : ExpState ns root has g) (h : r.2.tag = "node") : expStep o g r = execs g (expCalls o ns root r) := by
  row_simp h h
  unfold expNode
  rw [expElementId_eq ho, nodeParent_eq ho ha, at_ok (ho.attrs "cat" (by rw [h]; decide))]
  refine st.one (by rw [tigerFeats_eq ho.keys, st.ns]; exact addNode_label ho _ [ns, qual ns "syntax"] _) (label_ok ho _ (by simp) _) ?_
  intro g1 s1
  rw [addEdge_default, execs_edge, s1.ns]; rfl

theorem elem_relation {o : ExpOpts} (ho : XRow.Ok r) (st : ExpState ns root has g) (hn : has (.str (XRow.own r))) (h : r.2.tag = "relation") : expStep o g r = execs g (expCalls o ns root r) := by
  cases hr : o.relations with
  | true => row_simp h hr; simp only [expRelation, hr, if_true]; rfl
  | false =>
    row_simp h hr
    unfold expRelation
    have hp : expParentId r = .ok (XRow.own r) := by
      have h1 : find r.2.attrs "parent" = none := (find_eq_none_iff _ _).2 (ho.parent h)
      rcases ho.tag with ⟨h2, _⟩ | ⟨_, h3, p, rest, i, h4, h5⟩
      · rw [h] at h2; simp [expOwners] at h2
      · unfold expParentId XRow.own
        rw [h1, h3, h4]
        simp [h5]
    rw [hp, at_ok (ho.attrs "type" (by rw [h]; decide))]
    simp only [hr, Bool.false_eq_true, if_false]
    refine st.one (by rw [updateNode_eq (st.has _ hn)]; exact execs_one _ _) ⟨hn, by decide⟩ ?_
    intro g1 s1
    refine s1.one (by rw [addLayer_eq s1 (.inl hn), s1.ns]) (by simp [Instr.Ok, keys]) ?_
    intro g2 s2
    cases ht : find r.2.attrs "target" with
    | none => rfl
    | some t =>
      simp only
      refine s2.one (by rw [addLayer_eq s2 (.inl (.inl hn)), s2.ns]) (by simp [Instr.Ok, keys]) ?_
      intro g3 s3
      refine s3.one (by rw [s3.ns]; rfl) ⟨by simp, by simp [keys]⟩ ?_
      intro g4 s4
      rw [addLayer_eq s4 (.inr (.inr rfl)), s4.ns]
      exact (execs_one _ _).symm

theorem elem_secEdge {o : ExpOpts} (ho : XRow.Ok r) (st : ExpState ns root has g) (h : r.2.tag = "secEdge") : expStep o g r = execs g (expCalls o ns root r) := by
  cases hr : o.secedges with
  | true => row_simp h hr; simp only [expSecedge, hr, if_true]; rfl
  | false =>
    row_simp h hr
    unfold expSecedge
    have hp : expParentId r = .ok ((find r.2.attrs "parent").getD (XRow.own r)) := by
      rcases ho.tag with ⟨h2, _⟩ | ⟨_, h3, p, rest, i, h4, h5⟩
      · rw [h] at h2; simp [expOwners] at h2
      · unfold expParentId XRow.own
        rw [h3, h4]
        cases find r.2.attrs "parent" <;> simp [h5]
    rw [hp, expElementId_eq ho, at_ok (ho.attrs "cat" (by rw [h]; decide))]
    simp only [hr, Bool.false_eq_true, if_false]
    rw [execs_edge, st.ns]; rfl

theorem elem_sentence {o : ExpOpts} (ho : XRow.Ok r) (hi : InsideOk r) (st : ExpState ns root has g) (h : r.2.tag = "sentence") : expStep o g r = execs g (expCalls o ns root r) := by
  row_simp h h
  unfold expSentence
  cases hid : r.2.id with
  | none =>
    rcases ho.tag with ⟨_, h1⟩ | ⟨h1, _⟩
    · exact absurd hid h1
    · rw [h] at h1; simp [expNotes] at h1
  | some n =>
    have hown := own_of_id hid
    rw [hown]
    show _ = execs g (_ :: _ :: _ :: [])
    refine st.one (by rw [addEdge_default, st.ns, st.root]; rfl) ⟨by simp, by simp [keys]⟩ ?_
    intro g1 s1
    have hids : expSentenceTokens r = .ok (sentIds r) := by
      unfold sentIds expSentenceTokens
      cases hs : find r.2.attrs "span" with
      | none => exact inside_ids hi "word"
      | some s =>
        have := ho.span h s hs
        show convertSpanstring s = _
        cases hc : convertSpanstring s with
        | error e => rw [hc] at this; simp [Except.isOk, Except.toBool] at this
        | ok v => simp only [hc]; rfl
    rw [execs_cons, hids]
    show DG.setAttr _ _ _ (idListVal _) = _
    rw [idListVal_eq]
    simp only [Instr.exec, bind, Except.bind, execs_one]

theorem elem_split {o : ExpOpts} (ho : XRow.Ok r) (st : ExpState ns root has g) (h : r.2.tag = "splitRelation") : expStep o g r = execs g (expCalls o ns root r) := by
  have hoff : (o.relations || o.splitrelations) = true → expStep o g r = execs g (expCalls o ns root r) := by
    intro hr
    row_simp h hr
    simp only [expSplit, hr, if_true]; rfl
  cases h1 : o.relations with
  | true => exact hoff (by rw [h1]; rfl)
  | false =>
    cases h2 : o.splitrelations with
    | true => exact hoff (by rw [h1, h2]; rfl)
    | false =>
      have h12 : (o.relations || o.splitrelations) = false := by rw [h1, h2]; rfl
      have he : XRow.edges o ns root r = ⟨.str (XRow.own r), .str (XRow.targetSpan r), [ns, qual ns "coreference", qual ns "splitrelation", qual ns (XRow.at' r "type")], [("edge_type", strV "points_to")]⟩ ::
          (XRow.targets r).map (fun t => ⟨.str (XRow.targetSpan r), .str t, [ns, qual ns (XRow.at' r "type")], [("edge_type", strV "spans")]⟩) := by
        simp only [XRow.edges, h, h1, h2, String.reduceEq, if_false, if_true, true_and, and_true, and_self, false_and]
      have hc : expCalls o ns root r = .node (.str (XRow.own r)) [ns, qual ns "relation", qual ns (XRow.at' r "type"), qual ns "markable"] [] ::
          .node (.str (XRow.targetSpan r)) [ns, qual ns "targetspan", qual ns (XRow.at' r "type"), qual ns "markable"] [] :: edgeCalls (XRow.edges o ns root r) := by
        row_simp h h12
      rw [hc, he]
      simp only [expStep, h, String.reduceEq, if_false, if_true]
      unfold expSplit
      rw [expElementId_eq ho, at_ok (ho.attrs "target" (by rw [h]; decide)), at_ok (ho.attrs "type" (by rw [h]; decide))]
      simp only [h12, Bool.false_eq_true, if_false]
      refine st.one (by rw [st.ns]; rfl) ⟨by simp, by simp [keys]⟩ ?_
      intro g1 s1
      refine s1.one (by rw [s1.ns]; rfl) ⟨by simp, by simp [keys]⟩ ?_
      intro g2 s2
      refine s2.one (by rw [s2.ns]; rfl) ⟨by simp, by simp [keys]⟩ ?_
      intro g3 s3
      rw [foldlM_calls (ns := ns) (r := root) _ (fun t => [.edge (.str (XRow.targetSpan r)) (.str t) [ns, qual ns (XRow.at' r "type")] [("edge_type", strV "spans")]]) _ ?_ g3 s3.ns s3.root]
      · congr 1
        show (XRow.targets r).flatMap _ = _
        rw [List.map_map, List.map_eq_flatMap]
        rfl
      · intro g' t _ hn _
        rw [execs_one, hn]; rfl

theorem elem_word {o : ExpOpts} (ho : XRow.Ok r) (ha : AncIds r.1) (hne : r.1 ≠ []) (st : ExpState ns root has g) (h : r.2.tag = "word") : expStep o g r = execs g (expCalls o ns root r) := by
  row_simp h h
  unfold expWord
  rw [expElementId_eq ho, wordParent_eq ho ha hne]
  have hf := featAt_ok (p := ns) (ho.attrs "form" (by rw [h]; decide))
  rw [execs_cons]
  show ((_ : Except PyErr Val) >>= fun form => _) = execs _ _
  obtain ⟨g0, e0, s0, _⟩ := st.after (s := [.token (.str (XRow.own r))]) ⟨trivial, trivial⟩
  rw [execs_one] at e0
  obtain rfl := Except.ok.inj e0
  have e2 : featAt (tigerFeats g.ns r.2.attrs) (qual g.ns "form") = .ok (strV (XRow.at' r "form")) := by
    rw [tigerFeats_eq ho.keys, st.ns, hf]; rfl
  rw [e2]
  refine s0.one (by rw [tigerFeats_eq ho.keys, st.ns]; exact addNode_dict _ _ [ns, qual ns "token"] _) ⟨by simp, ?_⟩ ?_
  · exact nodup_upd (feats_ok ho).1 _
  · intro g1 s1
    rw [addEdge_default, execs_edge, s1.ns]; rfl

end DG
end Dg
