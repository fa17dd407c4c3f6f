import Verif.Lemmas.SpanText
import Verif.Lemmas.MmaxWhole
import Verif.Props.C62
import Verif.Props.C73

namespace Dg
open Dict
namespace DG

theorem joinChars_intercalate (sep : List Char) : ∀ ws : List (List Char), joinChars sep ws = sep.intercalate ws
  | [] => rfl
  | [x] => by simp [joinChars, List.intercalate]
  | x :: y :: xs => by
    have := joinChars_intercalate sep (y :: xs)
    simp only [joinChars, this, List.intercalate, List.intersperse_cons_cons, List.flatten_cons, List.append_assoc]

theorem hasNode_has (g : DG) (n : NodeId) : has g.nodes n = true ↔ g.HasNode n := has_iff _ _

/-- what `existingToken` does with an ID that stands for a node with the given attribute -/
theorem existingToken_word {g : DG} {i : String} {o : Option Val}
    (h : (g.HasNode (.str i) ∧ g.nodeAttr (.str i) (g.ns ++ (":" ++ "token")) = o) ∨
      (¬ g.HasNode (.str i) ∧ ∃ d r, g.renamed = some d ∧ find d (.str i) = some r ∧ g.HasNode r ∧ g.nodeAttr r (g.ns ++ (":" ++ "token")) = o)) :
    ∃ t, g.existingToken (.str i) = some t ∧ g.nodeAttr t (g.ns ++ (":" ++ "token")) = o := by
  unfold existingToken
  rcases h with ⟨h1, h2⟩ | ⟨h1, d, r, h2, h3, h4, h5⟩
  · rw [if_pos ((hasNode_has _ _).2 h1)]; exact ⟨_, rfl, h2⟩
  · rw [if_neg (fun x => h1 ((hasNode_has _ _).1 x)), h2]
    simp only [Option.bind_some, h3]
    rw [if_pos ((hasNode_has _ _).2 h4)]
    exact ⟨r, rfl, h5⟩

theorem existingToken_missing {g : DG} {i : String} (h : SpanMissing g i) : g.existingToken (.str i) = none := by
  unfold existingToken
  rw [if_neg (fun x => h.1 ((hasNode_has _ _).1 x))]
  cases hr : g.renamed with
  | none => rfl
  | some d =>
    simp only [Option.bind_some]
    cases hf : find d (.str i) with
    | none => rfl
    | some r => exact if_neg (fun x => h.2 d r hr hf ((hasNode_has _ _).1 x))

theorem attr_hasNode {g : DG} {n : NodeId} {k : String} {v : Val} (h : g.nodeAttr n k = some v) : g.HasNode n := by
  obtain ⟨a, ha⟩ := nodeAttr_hasNode h
  exact hasNode_iff'.2 ⟨a, ha⟩

theorem SpanWord.node {g : DG} {i w : String} (h : SpanWord g i w) : ∃ t, g.existingToken (.str i) = some t ∧ g.nodeAttr t (g.ns ++ (":" ++ "token")) = some (.atom (.str w)) :=
  existingToken_word (h.imp id (fun ⟨a, d, r, b, c, e⟩ => ⟨a, d, r, b, c, attr_hasNode e, e⟩))

/-- **C80 (text)**.  `spanstring2text` joins, with single blanks and in the order of the span, the strings of the tokens that the IDs of the span stand for; IDs that stand for no token (words that were removed from the file) are left out. -/
theorem c80_text (g : DG) (s : String) (ids : List String) (h : convertSpanstring s = .ok ids) (word : String → Option String)
    (hw : ∀ i ∈ ids, ∀ w, word i = some w → SpanWord g i w) (hm : ∀ i ∈ ids, word i = none → SpanMissing g i) :
    g.spanstring2text s = .ok (String.ofList ([' '].intercalate ((ids.filterMap word).map String.toList))) := by
  have key : ∀ l : List String, (∀ i ∈ l, i ∈ ids) → ∃ vs, mapE (fun t => g.getAttr t (qual g.ns "token")) (l.filterMap (fun i => g.existingToken (.str i))) = .ok vs ∧
      mapE spanWordOf vs = .ok ((l.filterMap word).map String.toList) := by
    intro l
    induction l with
    | nil => intro _; exact ⟨[], rfl, rfl⟩
    | cons i l ih =>
      intro hl
      obtain ⟨vs, e1, e2⟩ := ih (fun j hj => hl j (List.mem_cons_of_mem _ hj))
      have hi := hl i List.mem_cons_self
      cases hwi : word i with
      | none => rw [List.filterMap_cons_none (f := fun i => g.existingToken (.str i)) (existingToken_missing (hm i hi hwi)), List.filterMap_cons_none hwi]; exact ⟨vs, e1, e2⟩
      | some w =>
        obtain ⟨t, e3, e4⟩ := (hw i hi w hwi).node
        rw [List.filterMap_cons_some (f := fun i => g.existingToken (.str i)) e3, List.filterMap_cons_some hwi]
        refine ⟨.atom (.str w) :: vs, ?_, ?_⟩
        · unfold mapE
          rw [show g.getAttr t (qual g.ns "token") = _ from getAttr_ok.2 e4]
          simp only [bind, Except.bind, e1]
        · unfold mapE
          simp only [bind, Except.bind, e2]; rfl
  obtain ⟨vs, e1, e2⟩ := key ids (fun _ h => h)
  unfold spanstring2text spanstring2tokens
  rw [h]
  simp only [bind, Except.bind, pure, Except.pure, e1, e2, joinChars_intercalate]

/-- **C80 (no string)**.  If one of the IDs stands for a node that has no string in the namespace of the document (a markable, or a token of another layer that was not renamed), then the text is not found: KeyError. -/
theorem c80_no_string (g : DG) (s : String) (ids : List String) (h : convertSpanstring s = .ok ids) {i : String} (hi : i ∈ ids) (hb : SpanBlank g i) : g.spanstring2text s = .error .key := by
  obtain ⟨t, e1, e2⟩ := existingToken_word (o := none) hb
  have : mapE (fun t => g.getAttr t (qual g.ns "token")) (ids.filterMap (fun i => g.existingToken (.str i))) = .error .key := by
    refine mapE_all_key ?_ ⟨t, List.mem_filterMap.2 ⟨i, hi, e1⟩, getAttr_none e2⟩
    intro x _ e he
    rw [getAttr_eq] at he
    cases hx : g.nodeAttr x (qual g.ns "token") with
    | none => rw [hx] at he; cases he; rfl
    | some v => rw [hx] at he; cases he
  unfold spanstring2text spanstring2tokens
  rw [h]
  simp only [bind, Except.bind, pure, Except.pure, this]

/-- **C80 (spans)**.  The text of something that is no span is not found: the error is that of `convert_spanstring`. -/
theorem c80_no_span (g : DG) (s : String) {e : PyErr} (h : convertSpanstring s = .error e) : g.spanstring2text s = .error e := by
  unfold spanstring2text spanstring2tokens
  rw [h]; rfl

/-! ### merged documents -/

/-- **C80 (renamed)**.  When a layer is added to a document, the IDs of the layer's tokens stand for the words at the same positions of the document, unless the document has other nodes with these IDs. -/
theorem c80_renamed {strs : List String} (hne : strs ≠ []) {g o : DG} (hd : Document strs g) (hl : Layer strs o) (ha : Apart g.tokens g.root g.ns o) (hroot : ¬ g.HasNode o.root)
    {s : Sched} (hs : s.Valid (o.tokens.zip g.tokens)) {g' : DG} (he : g.mergeGraphs o s = (g', none)) {j : Nat} {i w : String} (hi : o.tokens[j]? = some (.str i)) (hw : strs[j]? = some w)
    (hn : ¬ g.HasNode (.str i)) : SpanWord g' i w := by
  obtain ⟨g1, a1, a2, a3, a4, a5, -, a7, a8, -⟩ := addsLayer hne hd hl ha hroot hs
  rw [he] at a1; cases a1
  obtain ⟨m, hm, hk, hv, -⟩ := mapping_facts hd.strings hl.strings hd.distinct hl.distinct
  have hmz : m = o.tokens.zip g.tokens := by rw [← hk, ← hv]; exact zip_keys_vals m
  have hlen : o.tokens.length = g.tokens.length := by rw [hl.strings.length_eq, hd.strings.length_eq]
  have hj : j < o.tokens.length := (List.getElem?_eq_some_iff.1 hi).1
  obtain ⟨t, ht⟩ : ∃ t, g.tokens[j]? = some t := ⟨_, List.getElem?_eq_getElem (by omega)⟩
  have hnd : (keys m).Nodup := hk ▸ hl.distinct
  have hf : find m (.str i) = some t := by
    refine (mem_find hnd ?_)
    rw [hmz]
    refine List.mem_iff_getElem?.2 ⟨j, ?_⟩
    rw [List.getElem?_zip_eq_some]; exact ⟨hi, ht⟩
  obtain ⟨w', hw', htw⟩ := hasTokens_get a2.strings (i := j) (t := t) (by rw [a3]; exact ht)
  rw [hw] at hw'; cases hw'
  have htg : t ∈ g.tokens := List.mem_of_getElem? ht
  have hnode : ∀ t ∈ g.tokens, g.HasNode t := by
    intro t ht
    obtain ⟨k, hk⟩ := List.mem_iff_getElem?.1 ht
    obtain ⟨x, -, hx⟩ := hasTokens_get hd.strings hk
    exact attr_hasNode hx
  right
  refine ⟨?_, upd (g.renamed.getD []) m, t, renamed_mergeGraphs hl.sound hm he, ?_, htw⟩
  · intro hn'
    rcases a8.nodes _ hn' with k | ⟨o', p, n, h1, h2, h3⟩
    · exact hn k
    · cases List.mem_singleton.1 p
      rcases asIn_cases g'.tokens o n with k | k
      · rw [k] at h3; subst h3
        have : asIn g'.tokens o (.str i) = t := by unfold asIn applyMap; rw [a3, ← hmz, hf]; rfl
        rw [k] at this
        rw [← this] at htg
        exact hn (hnode _ htg)
      · rw [h3, a3] at k; exact hn (hnode _ k)
  · rw [find_upd _ hnd, hf]; rfl

/-- **C80 (kept)**.  What an ID stands for does not change when further layers are added, unless one of them has a node with this ID. -/
theorem c80_kept {strs : List String} (hne : strs ≠ []) {g o : DG} (hd : Document strs g) (hl : Layer strs o) (ha : Apart g.tokens g.root g.ns o) (hroot : ¬ g.HasNode o.root)
    {s : Sched} (hs : s.Valid (o.tokens.zip g.tokens)) {g' : DG} (he : g.mergeGraphs o s = (g', none)) {i w : String} (hw : SpanWord g i w) (hn : ¬ o.HasNode (.str i)) : SpanWord g' i w := by
  obtain ⟨g1, a1, a2, a3, a4, a5, -, a7, a8, -⟩ := addsLayer hne hd hl ha hroot hs
  rw [he] at a1; cases a1
  obtain ⟨m, hm, hk, hv, -⟩ := mapping_facts hd.strings hl.strings hd.distinct hl.distinct
  have hnode : ∀ t ∈ g.tokens, g.HasNode t := by
    intro t ht
    obtain ⟨k, hk⟩ := List.mem_iff_getElem?.1 ht
    obtain ⟨x, -, hx⟩ := hasTokens_get hd.strings hk
    exact attr_hasNode hx
  have hattr : ∀ n, g.nodeAttr n (g.ns ++ (":" ++ "token")) = some (.atom (.str w)) → g'.nodeAttr n (g'.ns ++ (":" ++ "token")) = some (.atom (.str w)) := by
    intro n h
    rw [a5]
    rcases a7.attrs n _ _ (qual_ne_plain (ns := g.ns) (a := "token") (by decide)) (qual_ne_plain (ns := g.ns) (a := "token") (by decide)) h with k | ⟨o', p, n', -, h2⟩
    · exact k
    · cases List.mem_singleton.1 p; exact absurd (ha.token n') h2
  rcases hw with ⟨h1, h2⟩ | ⟨h1, d, r, h2, h3, h4⟩
  · exact .inl ⟨(a7.nodes _ h1).1, hattr _ h2⟩
  · refine .inr ⟨?_, upd d m, r, ?_, ?_, hattr _ h4⟩
    · intro hn'
      rcases a8.nodes _ hn' with k | ⟨o', p, n, k1, -, k3⟩
      · exact h1 k
      · cases List.mem_singleton.1 p
        rcases asIn_cases g'.tokens o n with k | k
        · rw [k] at k3; subst k3; exact hn k1
        · rw [k3, a3] at k; exact h1 (hnode _ k)
    · rw [renamed_mergeGraphs hl.sound hm he, h2]; rfl
    · rw [find_upd_not_mem _ _ _ ?_, h3]
      rw [hk]
      intro hmem
      obtain ⟨k, hk⟩ := List.mem_iff_getElem?.1 hmem
      obtain ⟨x, -, hx⟩ := hasTokens_get hl.strings hk
      exact hn (attr_hasNode hx)

/-- no node with an ID that neither the document nor the layers know -/
theorem mergeAll_fresh {strs : List String} {layers : List (DG × Sched)} {g g' : DG} (hd : Document strs g) (ht : g'.tokens = g.tokens) (h : OnlyFrom (layers.map Prod.fst) g g') {r : NodeId}
    (hg : ¬ g.HasNode r) (hl : ∀ p ∈ layers, ¬ p.1.HasNode r) : ¬ g'.HasNode r := by
  refine h.not_root hd ht hg ?_
  intro o ho hn
  obtain ⟨p, hp, rfl⟩ := List.mem_map.1 ho
  exact absurd hn (hl p hp)

theorem mergeAll_cons {g g1 : DG} {q : DG × Sched} {layers : List (DG × Sched)} (h : g.mergeGraphs q.1 q.2 = (g1, none)) : g.mergeAll (q :: layers) = g1.mergeAll layers := by
  obtain ⟨o, s⟩ := q
  dsimp only at h
  rw [mergeAll, h]

/-- layers that can be merged into a document one after the other -/
structure Mergeable (strs : List String) (g : DG) (layers : List (DG × Sched)) : Prop where
  layer : ∀ p ∈ layers, Layer strs p.1 ∧ Apart g.tokens g.root g.ns p.1 ∧ ¬ g.HasNode p.1.root ∧ p.2.Valid (p.1.tokens.zip g.tokens)
  roots : layers.Pairwise (fun a b => ¬ a.1.HasNode b.1.root ∧ ¬ b.1.HasNode a.1.root)

theorem Mergeable.step {strs : List String} (hne : strs ≠ []) {g : DG} {q : DG × Sched} {layers : List (DG × Sched)} (hd : Document strs g) (h : Mergeable strs g (q :: layers)) :
    ∃ g1, g.mergeGraphs q.1 q.2 = (g1, none) ∧ Document strs g1 ∧ g1.tokens = g.tokens ∧ OnlyFrom [q.1] g g1 ∧ Mergeable strs g1 layers := by
  obtain ⟨l1, l2, l3, l4⟩ := h.layer q List.mem_cons_self
  obtain ⟨p1, p2⟩ := List.pairwise_cons.1 h.roots
  obtain ⟨g1, a1, a2, a3, a4, a5, a6, a7, a8, a9⟩ := addsLayer hne hd l1 l2 l3 l4
  refine ⟨g1, a1, a2, a3, a8, fun p hm => ?_, p2⟩
  obtain ⟨m1, m2, m3, m4⟩ := h.layer p (List.mem_cons_of_mem _ hm)
  refine ⟨m1, by rw [a3, a4, a5]; exact m2, ?_, by rw [a3]; exact m4⟩
  refine a8.not_root hd a3 m3 ?_
  intro o' ho' hn
  rw [List.mem_singleton.1 ho'] at hn
  exact absurd hn (p1 p hm).1

/-- what an ID stands for is kept by layers that do not know the ID -/
theorem mergeAll_spanWord {strs : List String} (hne : strs ≠ []) {i w : String} (layers : List (DG × Sched)) : ∀ {g g' : DG}, Document strs g → Mergeable strs g layers → g.mergeAll layers = (g', none) →
    SpanWord g i w → (∀ p ∈ layers, ¬ p.1.HasNode (.str i)) → SpanWord g' i w := by
  induction layers with
  | nil => intro g g' _ _ h hw _; cases h; exact hw
  | cons q layers ih =>
    intro g g' hd hm h hw hn
    obtain ⟨l1, l2, l3, l4⟩ := hm.layer q List.mem_cons_self
    obtain ⟨g1, e1, e2, -, -, e5⟩ := hm.step hne hd
    rw [mergeAll_cons e1] at h
    exact ih e2 e5 h (c80_kept hne hd l1 l2 l3 l4 e1 hw (hn q List.mem_cons_self)) (fun p hp => hn p (List.mem_cons_of_mem _ hp))

/-- **C80 (layers)**, partial.  In a document that any number of layers were merged into, an ID of the `j`-th token of any of the layers stands for the `j`-th word of the text, provided that neither the document nor another layer has a node with this ID.
Missing: the conditions on the layers of C73; IDs that are used by several layers. -/
theorem c80_layers_partial {strs : List String} (hne : strs ≠ []) {g g' : DG} (hd : Document strs g) {i w : String} {j : Nat} (hw : strs[j]? = some w) (before : List (DG × Sched)) (p : DG × Sched) (later : List (DG × Sched))
    (hl : ∀ q ∈ before ++ p :: later, Layer strs q.1 ∧ Apart g.tokens g.root g.ns q.1 ∧ ¬ g.HasNode q.1.root ∧ q.2.Valid (q.1.tokens.zip g.tokens))
    (hr : (before ++ p :: later).Pairwise (fun a b => ¬ a.1.HasNode b.1.root ∧ ¬ b.1.HasNode a.1.root)) (he : g.mergeAll (before ++ p :: later) = (g', none))
    (hi : p.1.tokens[j]? = some (.str i)) (hn : ¬ g.HasNode (.str i)) (hb : ∀ q ∈ before ++ later, ¬ q.1.HasNode (.str i)) : SpanWord g' i w := by
  have hm : Mergeable strs g (before ++ p :: later) := ⟨hl, hr⟩
  clear hl hr
  induction before generalizing g with
  | nil =>
    obtain ⟨l1, l2, l3, l4⟩ := hm.layer p List.mem_cons_self
    obtain ⟨g1, e1, e2, -, -, e5⟩ := hm.step hne hd
    rw [List.nil_append, mergeAll_cons e1] at he
    exact mergeAll_spanWord hne later e2 e5 he (c80_renamed hne hd l1 l2 l3 l4 e1 hi hw hn) (fun q hq => hb q (List.mem_append_right _ hq))
  | cons q before ih =>
    obtain ⟨g1, e1, e2, e3, e4, e5⟩ := Mergeable.step (q := q) (layers := before ++ p :: later) hne hd hm
    rw [List.cons_append, mergeAll_cons e1] at he
    refine ih e2 he ?_ (fun r hr => hb r (List.mem_cons_of_mem _ hr)) e5
    exact mergeAll_fresh (layers := [q]) hd e3 e4 hn (fun r hr => by rw [List.mem_singleton.1 hr]; exact hb q List.mem_cons_self)

/-- **C80 (span of a merged layer)**, partial.  The text of a span of a layer's tokens, in the merged document, is the words at the positions of the tokens, in the order of the span.  Missing: as `c80_layers_partial`. -/
theorem c80_merged_text_partial {strs : List String} (hne : strs ≠ []) {g : DG} (hd : Document strs g) (before : List (DG × Sched)) (p : DG × Sched) (later : List (DG × Sched))
    (hl : ∀ q ∈ before ++ p :: later, Layer strs q.1 ∧ Apart g.tokens g.root g.ns q.1 ∧ ¬ g.HasNode q.1.root ∧ q.2.Valid (q.1.tokens.zip g.tokens))
    (hr : (before ++ p :: later).Pairwise (fun a b => ¬ a.1.HasNode b.1.root ∧ ¬ b.1.HasNode a.1.root)) {s : String} {ids words : List String} (hs : convertSpanstring s = .ok ids)
    (hw : List.Forall₂ (fun (i w : String) => ∃ j : Nat, p.1.tokens[j]? = some (.str i) ∧ strs[j]? = some w) ids words) (hn : ∀ i ∈ ids, ¬ g.HasNode (.str i) ∧ ∀ q ∈ before ++ later, ¬ q.1.HasNode (.str i)) :
    ∃ g', g.mergeAll (before ++ p :: later) = (g', none) ∧ g'.spanstring2text s = .ok (String.ofList ([' '].intercalate (words.map String.toList))) := by
  obtain ⟨g', he, -⟩ := mergeAll_spec hne (before ++ p :: later) hd hl hr
  refine ⟨g', he, ?_⟩
  obtain ⟨l1, -⟩ := hl p (by simp)
  -- the word of an ID
  let word : String → Option String := fun i => strs[p.1.tokens.idxOf (NodeId.str i)]?
  have key : ∀ (i w : String), (∃ j : Nat, p.1.tokens[j]? = some (.str i) ∧ strs[j]? = some w) → word i = some w := by
    rintro i w ⟨j, h1, h2⟩
    obtain ⟨hj, h1⟩ := List.getElem?_eq_some_iff.1 h1
    show strs[p.1.tokens.idxOf (NodeId.str i)]? = some w
    rw [← h1, l1.distinct.idxOf_getElem j hj]
    exact h2
  have hall : ids.filterMap word = words := by
    clear hs hn
    induction hw with
    | nil => rfl
    | cons h _ ih => rw [List.filterMap_cons_some (key _ _ h), ih]
  have hex : ∀ i ∈ ids, ∃ w : String, ∃ j : Nat, p.1.tokens[j]? = some (.str i) ∧ strs[j]? = some w := fun i hi => (forall₂_mem_left hw hi).imp (fun w h => h.2)
  rw [← hall]
  refine c80_text g' s ids hs word ?_ ?_
  · intro i hi w hwi
    obtain ⟨w', j, h1, h2⟩ := hex i hi
    rw [key i w' ⟨j, h1, h2⟩] at hwi
    cases hwi
    exact c80_layers_partial hne hd h2 before p later hl hr he h1 (hn i hi).1 (hn i hi).2
  · intro i hi hwi
    obtain ⟨w', h⟩ := hex i hi
    rw [key i w' h] at hwi; cases hwi

/-! ### MMAX2 projects -/

/-- **C80 (markables)**, partial.  In the graph of an MMAX2 project, the text of the span of a markable is the strings of its words in the file, in the order of the span; IDs without a word in the file are left out.  Missing: the conditions on the project of C62. -/
theorem c80_markable_partial {ns : String} {precedence connected ignore : Bool} {doc : MmaxDoc} {p : MmaxProject} (hd : doc.Ok ns ignore) (hp : p.Has ignore doc) (name : Option String) {order : List String}
    (ho : order.Perm (doc.levels.map Prod.fst)) (hname : ignore = true → ∀ n, name = some n → n = "" ∨ mmaxFileId n = mmaxFileId p.base) (h2 : precedence = true → 2 ≤ doc.words.length) :
    ∃ g, mmaxRead name ns precedence connected ignore p order = .ok g ∧ ∀ m, (∃ l, (l, m) ∈ doc.marks) ∨ m ∈ doc.sentences ignore →
      g.spanstring2text (xval m.attrs "span") = .ok (String.ofList ([' '].intercalate ((m.ids.filterMap (fun i => find doc.words i)).map String.toList))) := by
  obtain ⟨_, _, g, e, -, -, h, _, -, -, hren⟩ := mmaxRead_content (connected := connected) hd hp name ho hname h2
  refine ⟨g, e, fun m hm => ?_⟩
  have hids : convertSpanstring (xval m.attrs "span") = .ok m.ids := by
    have key : m ∈ doc.sentences ignore → ignore = true → m.Spans := fun hs hi => hd.sents hi m (by unfold MmaxDoc.sentences at hs; rw [if_pos hi] at hs; exact hs)
    rcases hm with ⟨l, hl⟩ | hm
    · exact (hd.marks _ hl).ids
    · cases hi : ignore with
      | true => exact (key hm hi).ids
      | false => exact (hd.marks _ ((mem_sentences_mark hi).1 hm)).ids
  refine c80_text g _ m.ids hids _ ?_ ?_
  · intro i _ w hw
    have hmem := find_some_mem hw
    have := h.word _ hmem (qual ns "token") (qual_ne_plain (by decide))
    rw [if_pos (.inr rfl)] at this
    exact .inl ⟨attr_hasNode this, by rw [h.space]; exact this⟩
  · intro i hi hw
    refine ⟨?_, fun d r hd' => by rw [hren] at hd'; cases hd'⟩
    have hnw : i ∉ doc.wordIds := (find_eq_none_iff _ _).1 hw
    rcases hd.stray m hm i hi with k | ⟨k1, k2⟩
    · exact absurd k hnw
    · rw [h.nodes]
      rintro (k | ⟨j, hj, k⟩)
      · exact k2 (by injection k)
      · injection k with k
        subst k
        simp only [List.mem_append] at hj k1
        tauto

/-! ### examples: three annotations of the text "x y" -/

def c80A : DG := mergeDoc "a" "ra" "a_1" "a_2" "a_9"
def c80B : DG := mergeDoc "b" "rb" "b_1" "b_2" "b_9"
def c80C : DG := mergeDoc "c" "rc" "c_1" "c_2" "c_9"
def c80SchedB : Sched := ⟨some [.str "b_1", .str "b_2"], [.str "a_2", .str "a_1"]⟩
def c80SchedC : Sched := ⟨some [.str "c_2", .str "c_1"], [.str "a_1", .str "a_2"]⟩
theorem c80DocA : Layer ["x", "y"] c80A ∧ c80A.Document ["x", "y"] :=
  pccDoc _ _ _ _ _ (Reachable.inv ⟨"", "a", some (.str "ra"), _, by decide, rfl⟩) (by decide +kernel) (by decide +kernel) (show _ = _ by decide +kernel) (show _ = _ by decide +kernel) (by decide) (by decide +kernel) (by decide +kernel) (by decide +kernel) (by decide +kernel)
theorem c80DocB : Layer ["x", "y"] c80B ∧ c80B.Document ["x", "y"] :=
  pccDoc _ _ _ _ _ (Reachable.inv ⟨"", "b", some (.str "rb"), _, by decide, rfl⟩) (by decide +kernel) (by decide +kernel) (show _ = _ by decide +kernel) (show _ = _ by decide +kernel) (by decide) (by decide +kernel) (by decide +kernel) (by decide +kernel) (by decide +kernel)
theorem c80DocC : Layer ["x", "y"] c80C ∧ c80C.Document ["x", "y"] :=
  pccDoc _ _ _ _ _ (Reachable.inv ⟨"", "c", some (.str "rc"), _, by decide, rfl⟩) (by decide +kernel) (by decide +kernel) (show _ = _ by decide +kernel) (show _ = _ by decide +kernel) (by decide) (by decide +kernel) (by decide +kernel) (by decide +kernel) (by decide +kernel)
theorem c80ApartB : Apart c80A.tokens c80A.root c80A.ns c80B := pccApart (by decide +kernel) (by decide +kernel) (by decide +kernel) (by decide +kernel)
theorem c80ValidB : c80SchedB.Valid (c80B.tokens.zip c80A.tokens) := by
  rw [show c80B.tokens = [.str "b_1", .str "b_2"] by decide +kernel, show c80A.tokens = [.str "a_1", .str "a_2"] by decide +kernel]
  exact pccValid _ _ _ _ (by decide) (by decide) (.inl rfl) (List.Perm.swap _ _ _)
theorem c80ApartC : Apart c80A.tokens c80A.root c80A.ns c80C := pccApart (by decide +kernel) (by decide +kernel) (by decide +kernel) (by decide +kernel)
theorem c80ValidC : c80SchedC.Valid (c80C.tokens.zip c80A.tokens) := by
  rw [show c80C.tokens = [.str "c_1", .str "c_2"] by decide +kernel, show c80A.tokens = [.str "a_1", .str "a_2"] by decide +kernel]
  exact pccValid _ _ _ _ (by decide) (by decide) (.inr rfl) (List.Perm.refl _)

theorem c80_ex_b1 : c80B.tokens[0]? = some (.str "b_1") ∧ c80B.tokens[1]? = some (.str "b_2") := ⟨by decide +kernel, by decide +kernel⟩

/-- the conditions of `c80_merged_text_partial` and `c80_layers_partial` are met: the span `b_2,b_1` of one of three annotations of the text "x y" has the text "y x" in the merged document, although the tokens are called `a_1` and `a_2` there -/
example : ∃ g', c80A.mergeAll [(c80B, c80SchedB), (c80C, c80SchedC)] = (g', none) ∧ g'.spanstring2text "b_2,b_1" = .ok "y x" := by
  refine c80_merged_text_partial (strs := ["x", "y"]) (by simp) c80DocA.2 [] (c80B, c80SchedB) [(c80C, c80SchedC)] ?_ ?_ (ids := ["b_2", "b_1"]) (words := ["y", "x"]) (by decide +kernel) ?_ ?_
  · intro p hp
    simp only [List.nil_append, List.mem_cons, List.not_mem_nil, or_false] at hp
    rcases hp with rfl | rfl
    · exact ⟨c80DocB.1, c80ApartB, by decide +kernel, c80ValidB⟩
    · exact ⟨c80DocC.1, c80ApartC, by decide +kernel, c80ValidC⟩
  · simp only [List.nil_append, List.pairwise_cons, List.mem_cons, List.not_mem_nil, or_false, forall_eq, false_imp_iff, implies_true, and_true, List.Pairwise.nil]
    exact ⟨by decide +kernel, by decide +kernel⟩
  · exact .cons ⟨1, c80_ex_b1.2, rfl⟩ (.cons ⟨0, c80_ex_b1.1, rfl⟩ .nil)
  · intro i hi
    simp only [List.mem_cons, List.not_mem_nil, or_false] at hi
    rcases hi with rfl | rfl <;> refine ⟨by decide +kernel, ?_⟩ <;> intro q hq <;> simp only [List.nil_append, List.mem_cons, List.not_mem_nil, or_false] at hq <;> subst hq <;> decide +kernel

/-- … and of `c80_renamed` -/
example {g' : DG} (h : c80A.mergeGraphs c80B c80SchedB = (g', none)) : SpanWord g' "b_2" "y" :=
  c80_renamed (strs := ["x", "y"]) (by simp) c80DocA.2 c80DocB.1 c80ApartB (by decide +kernel) c80ValidB h c80_ex_b1.2 rfl (by decide +kernel)

/-- … and of `c80_kept` -/
example {g' : DG} (h : c80A.mergeGraphs c80B c80SchedB = (g', none)) : SpanWord g' "a_2" "y" :=
  c80_kept (strs := ["x", "y"]) (by simp) c80DocA.2 c80DocB.1 c80ApartB (by decide +kernel) c80ValidB h (.inl ⟨by decide +kernel, by decide +kernel⟩) (by decide +kernel)

/-- … and of `c80_markable_partial` -/
example (ignore : Bool) : ∃ g, mmaxRead none "mmax" true false ignore (c62Project ignore) ((c62Doc ignore).levels.map Prod.fst) = .ok g ∧ ∀ m, (∃ l, (l, m) ∈ (c62Doc ignore).marks) ∨ m ∈ (c62Doc ignore).sentences ignore →
    g.spanstring2text (xval m.attrs "span") = .ok (String.ofList ([' '].intercalate ((m.ids.filterMap (fun i => find (c62Doc ignore).words i)).map String.toList))) :=
  c80_markable_partial (c62Doc_ok ignore) (c62Project_has ignore) none (List.Perm.refl _) (by intro _ n h; cases h) (by intro _; cases ignore <;> decide)

/-- … and of `c80_no_string`: a markable is no token -/
example : (c80A.spanstring2text "a_9").toOption = none ∧ SpanBlank c80A "a_9" ∧ c80A.spanstring2text "a_9" = .error .key := by
  have h : SpanBlank c80A "a_9" := .inl ⟨by decide +kernel, by decide +kernel⟩
  have := c80_no_string c80A "a_9" ["a_9"] (by decide +kernel) (i := "a_9") (by simp) h
  exact ⟨by rw [this]; rfl, h, this⟩

/-- … and of `c80_no_span` -/
example : c80A.spanstring2text "a_1..b_2" = .error .assertion := c80_no_span _ _ (by decide +kernel)

/-- **C80** fails for IDs that several layers use: if the document has a token with the ID that a token of the layer has, then the span of the layer stands for the document's token, whatever the position. -/
theorem c80_fails_shared_ids (g : DG) (s i w : String) (h : convertSpanstring s = .ok [i]) (hn : g.nodeAttr (.str i) (g.ns ++ (":" ++ "token")) = some (.atom (.str w))) : g.spanstring2text s = .ok w := by
  rw [c80_text g s [i] h (fun _ => some w) (fun j hj v hv => by cases List.mem_singleton.1 hj; cases hv; exact .inl ⟨attr_hasNode hn, hn⟩) (fun _ _ h => by cases h)]
  simp [List.intercalate]

/-- the condition of `c80_fails_shared_ids` is met: the ID `a_1` of the first word -/
example : c80A.spanstring2text "a_1" = .ok "x" := c80_fails_shared_ids _ _ "a_1" _ (by decide +kernel) (by decide +kernel)

end DG
end Dg
