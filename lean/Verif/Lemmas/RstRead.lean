import Verif.Lemmas.RstTokens

/-! The content of a graph read from an .rs3 file. -/

namespace Dg
open Dict
namespace DG

theorem rstEvents_declared (doc : Rs3Doc) : declared (rstEvents doc) = rstOrder doc := by
  rw [rstEvents_eq, declared_evsOf]

theorem rootAfter_eq (ns : String) {doc : Rs3Doc} (h : doc.ReadOk) : rootAfter ns (rstEvents doc) = Rs3Doc.rootNode ns doc := by
  unfold rootAfter Rs3Doc.rootNode
  rw [rstEvents_declared]
  cases h1 : (rstOrder doc).find? Rs3Xml.isRoot with
  | none =>
    have : doc.elems.find? Rs3Xml.isRoot = none := by
      rw [List.find?_eq_none] at h1 ⊢
      exact fun x hx => h1 x (mem_rstOrder.2 hx)
    rw [this]
  | some x =>
    cases h2 : doc.elems.find? Rs3Xml.isRoot with
    | none =>
      rw [List.find?_eq_none] at h2
      exact (h2 x (mem_rstOrder.1 (List.mem_of_find?_eq_some h1)) (by simpa using List.find?_some h1)).elim
    | some y =>
      have := h.root x (mem_rstOrder.1 (List.mem_of_find?_eq_some h1)) y (List.mem_of_find?_eq_some h2) (by simpa using List.find?_some h1) (by simpa using List.find?_some h2)
      rw [this]; rfl

theorem linked_evsOf (ns : String) (rels : Dict (List Char) (List Char)) (xs : List Rs3Xml) : linked ns rels (xs.flatMap evsOf) = xs.filterMap (fun x => x.parent.map (rstEdge ns rels x)) := by
  induction xs with
  | nil => rfl
  | cons x xs ih =>
    rw [List.flatMap_cons, linked_append, ih]
    unfold evsOf
    cases hp : x.parent <;> simp [linked, hp]

theorem linked_perm (ns : String) (doc : Rs3Doc) : (linked ns (extractRelationtypes doc.rels) (rstEvents doc)).Perm (elemEdges ns doc) := by
  rw [rstEvents_eq, linked_evsOf]
  exact (rstOrder_perm doc).filterMap _

theorem declOf_elem (ns : String) {doc : Rs3Doc} (h : doc.ReadOk) {x : Rs3Xml} (hx : x ∈ doc.elems) : declOf ns (rstEvents doc) (rstNode ns x) = some x := by
  unfold declOf
  rw [rstEvents_declared]
  have hm := mem_rstOrder.2 hx
  cases hf : (rstOrder doc).find? (fun y => decide (rstId ns y.id = rstNode ns x)) with
  | none =>
    rw [List.find?_eq_none] at hf
    exact (hf x hm (by simp [rstNode])).elim
  | some y =>
    have h1 := List.find?_some hf
    simp only [decide_eq_true_eq] at h1
    have hy := mem_rstOrder.1 (List.mem_of_find?_eq_some hf)
    rw [List.inj_on_of_nodup_map h.unique hy hx (rstId_inj h1)]

theorem known_iff (ns : String) (rels : Dict (List Char) (List Char)) {doc : Rs3Doc} (h : doc.ReadOk) (m : NodeId) : (facts ns rels (rstEvents doc) m).known = true ↔ ∃ x ∈ doc.elems, m = rstNode ns x := by
  constructor
  · intro hk
    rcases known_cases _ _ hk with ⟨x, hx, rfl⟩ | ⟨x, p, hx, rfl⟩
    · rw [← mem_declared, rstEvents_declared, mem_rstOrder] at hx
      exact ⟨x, hx, rfl⟩
    · rw [rstEvents_eq] at hx
      obtain ⟨y, hy, hxy⟩ := List.mem_flatMap.1 hx
      unfold evsOf at hxy
      cases hp : y.parent with
      | none => rw [hp] at hxy; simp at hxy
      | some q =>
        rw [hp] at hxy
        simp at hxy
        obtain ⟨rfl, rfl⟩ := hxy
        obtain ⟨z, hz, rfl⟩ := h.parent x (mem_rstOrder.1 hy) p hp
        exact ⟨z, hz, rfl⟩
  · rintro ⟨x, hx, rfl⟩
    exact known_declared _ x (by rw [rstEvents_declared]; exact mem_rstOrder.2 hx)

/-- the content without tokens -/
def docView (ns : String) (doc : Rs3Doc) : View := evView ns (extractRelationtypes doc.rels) (rstEvents doc)

theorem docView_has (ns : String) {doc : Rs3Doc} (h : doc.ReadOk) (m : NodeId) : (docView ns doc).has m ↔ (∃ x ∈ doc.elems, m = rstNode ns x) ∨ m = Rs3Doc.rootNode ns doc := by
  show _ ∨ _ ↔ _
  rw [known_iff ns _ h, rootAfter_eq ns h]

theorem docView_noToken (ns : String) {doc : Rs3Doc} (h : doc.ReadOk) (t : RstTok) : ¬ (docView ns doc).has (t.node ns) := by
  rw [docView_has ns h]
  rintro (⟨x, hx, e⟩ | e)
  · exact tok_node_ne (h.colon x hx) e
  · unfold Rs3Doc.rootNode at e
    cases hf : doc.elems.find? Rs3Xml.isRoot with
    | none => rw [hf] at e; exact tok_node_root e
    | some x => rw [hf] at e; exact tok_node_ne (h.colon x (List.mem_of_find?_eq_some hf)) e

theorem docView_text (ns : String) {doc : Rs3Doc} (h : doc.ReadOk) {x : Rs3Xml} (hx : x ∈ Rs3Doc.segments doc) : (docView ns doc).attr (rstNode ns x) (qual ns "text") = some (strVal x.text) := by
  obtain ⟨hx, hs⟩ := List.mem_filter.1 hx
  have q1 : qual ns "text" ≠ qual ns "segment_type" := fun h => absurd (qual_inj h) (by decide)
  have q2 : qual ns "text" ≠ qual ns "rel_name" := fun h => absurd (qual_inj h) (by decide)
  have q3 : qual ns "text" ≠ "metadata" := fun h => qual_ne_plain (by decide) h
  have q4 : "label" ≠ qual ns "text" := fun h => qual_ne_plain (by decide) h.symm
  simp only [docView, evView, if_neg q1, if_neg q2, if_neg q3, declOf_elem ns h hx]
  cases hk : x.kind with
  | group o => simp [Rs3Xml.isSegment, hk] at hs
  | segment t => simp [elemAttrs, hk, find, q4, Rs3Xml.text]

theorem docView_layers (ns : String) (doc : Rs3Doc) (m : NodeId) : (docView ns doc).attr m "layers" = none := by
  have q : ∀ s, "layers" ≠ qual ns s := fun s h => qual_ne_plain (by decide) h.symm
  simp only [docView, evView, if_neg (q _), if_neg (show ¬ "layers" = "metadata" by decide)]
  cases hd : declOf ns (rstEvents doc) m with
  | none => rfl
  | some x =>
    simp only
    unfold elemAttrs
    cases x.kind with
    | segment t => simp [find, Ne.symm (q _)]
    | group o => rw [find_groupAttrs, if_neg (q _), if_neg (by decide)]

/-- the content of the graph -/
def fullView (ns : String) (tokenize precedence : Bool) (doc : Rs3Doc) : View :=
  let w := if tokenize then tokView (docView ns doc) ns (Rs3Doc.tokens doc) else docView ns doc
  { w with edges := w.edges ++ (if tokenize && precedence then precEdges ns (Rs3Doc.rootNode ns doc) ((Rs3Doc.tokens doc).map (RstTok.node ns)) else []) }

/-- reading a file -/
theorem rstRead_sees (name ns : String) (tokenize precedence : Bool) {doc : Rs3Doc} (h : doc.ReadOk) (h2 : tokenize = true → precedence = true → 2 ≤ (Rs3Doc.tokens doc).length) :
    ∃ g, rstRead name ns tokenize precedence doc = .ok (g, (Rs3Doc.segments doc).map (rstNode ns)) ∧ Sees g (fullView ns tokenize precedence doc) := by
  obtain ⟨g0, e0, s0⟩ := rst2graph_ok name ns h
  have s0 : Sees g0 (docView ns doc) := s0
  have hroot : (docView ns doc).root = Rs3Doc.rootNode ns doc := rootAfter_eq ns h
  have hlay := docView_layers ns doc
  have key : ∃ g, g0.rstTokenize ((Rs3Doc.segments doc).map (rstNode ns)) tokenize precedence = .ok g ∧ Sees g (fullView ns tokenize precedence doc) := by
    unfold rstTokenize
    cases tokenize with
    | false =>
      refine ⟨g0, rfl, ?_⟩
      simpa [fullView] using s0
    | true =>
      obtain ⟨g1, e1, s1⟩ := tokenize_ok (w := docView ns doc) (ns := ns) rfl (xs := Rs3Doc.segments doc) (ts := []) (tokView_nil _ ns s0) (by
          intro x hx
          rw [docView_has ns h]
          exact .inl ⟨x, (List.mem_filter.1 hx).1, rfl⟩) (fun x hx => docView_text ns h hx) (by
            have : ((Rs3Doc.segments doc).map Rs3Xml.id).Nodup := h.unique.sublist (List.filter_sublist.map _)
            simpa using tokens_nodup ns this) (docView_noToken ns h) (by
          intro m k hk hm
          have := (s0.sane hlay).attr m k hm
          exact this) hlay
      rw [List.nil_append] at s1
      have s1 : Sees g1 (tokView (docView ns doc) ns (Rs3Doc.tokens doc)) := s1
      simp only [if_true]
      rw [e1]
      cases precedence with
      | false =>
        refine ⟨g1, rfl, ?_⟩
        simpa [fullView] using s1
      | true =>
        obtain ⟨g2, e2, s2⟩ := precedence_ok s1 (by
            show (docView ns doc).has _ ∨ _
            refine .inl ?_
            rw [docView_has ns h]
            exact .inr hroot) (by
            intro t ht
            show (docView ns doc).has _ ∨ _
            simp only [tokView, docView, evView, List.nil_append] at ht
            obtain ⟨s, hs, rfl⟩ := List.mem_map.1 ht
            exact .inr ⟨s, hs, rfl⟩) (by
            have := h2 rfl rfl
            simpa [tokView, docView, evView] using this)
        refine ⟨g2, ?_, ?_⟩
        · simp only [bind, Except.bind, if_true]
          unfold batch
          rw [e2]
        · have hr : (tokView (docView ns doc) ns (Rs3Doc.tokens doc)).root = Rs3Doc.rootNode ns doc := hroot
          unfold fullView
          rw [← hr]
          exact s2
  obtain ⟨g, e, s⟩ := key
  refine ⟨g, ?_, s⟩
  unfold rstRead
  have e0' : rst2graph { init "" ns none with name := name } doc = .ok (g0, (Rs3Doc.segments doc).map (rstNode ns)) := e0
  simp only [bind, Except.bind, e0', e]
  have hm : g.getAttr g.root "metadata" = .ok (.dict []) := by
    rw [getAttr_ok, s.root, s.attr _ _ (by decide)]
    have q : ∀ s, "metadata" ≠ qual ns s := fun s h => qual_ne_plain (by decide) h.symm
    have hd : (docView ns doc).attr (docView ns doc).root "metadata" = some (.dict []) := by
      simp [docView, evView, q]
    cases tokenize with
    | false => exact hd
    | true =>
      have hf : (Rs3Doc.tokens doc).find? (fun t => decide (t.node ns = (docView ns doc).root)) = none := by
        rw [List.find?_eq_none]
        intro t _
        simp only [decide_eq_true_eq]
        intro e
        refine docView_noToken ns h t ?_
        rw [e, hroot, docView_has ns h]
        exact .inr rfl
      simp only [fullView, if_true, tokView]
      rw [hf]
      exact hd
  rw [hm]
  rfl

theorem ownType_eq (rels : Dict (List Char) (List Char)) (x : Rs3Xml) : strVal (ownType rels x) = .atom (.str (typeName rels x)) := by
  unfold ownType rstSegmentTypes typeName Rs3Xml.role relTypeOf
  cases hp : x.parent with
  | none =>
    cases hk : x.kind <;> simp [Rs3Xml.isSegment, hk, strVal]
  | some p =>
    simp only
    cases hf : find rels (x.relname.getD []) with
    | none => simp [strVal]
    | some t =>
      simp only [Option.getD_some]
      by_cases h1 : t = ['r', 's', 't']
      · simp [h1, strVal]
      · by_cases h2 : t = ['m', 'u', 'l', 't', 'i', 'n', 'u', 'c']
        · simp [h2, strVal]
        · simp [h1, h2, strVal]

/-- the facts after a link to the node -/
def linkFacts (rels : Dict (List Char) (List Char)) (f : Facts) (y : Rs3Xml) : Facts :=
  if f.known then
    if y.role rels ≠ .span then ⟨true, if y.role rels = .satellite then some ['n', 'u', 'c', 'l', 'e', 'u', 's'] else f.seg, y.relname⟩ else f
  else ⟨true, if y.role rels = .satellite then some ['n', 'u', 'c', 'l', 'e', 'u', 's'] else if y.role rels = .nucleus then none else some spanS, y.relname⟩

theorem types_parent (rels : Dict (List Char) (List Char)) {y : Rs3Xml} {p : List Char} (hp : y.parent = some p) :
    (rstSegmentTypes rels y).2 = if y.role rels = .satellite then some ['n', 'u', 'c', 'l', 'e', 'u', 's'] else if y.role rels = .nucleus then none else some spanS := by
  unfold rstSegmentTypes Rs3Xml.role relTypeOf
  rw [hp]
  simp only
  cases hf : find rels (y.relname.getD []) with
  | none => simp [spanS]
  | some t =>
    simp only [Option.getD_some]
    by_cases h1 : t = ['r', 's', 't']
    · simp [h1]
    · by_cases h2 : t = ['m', 'u', 'l', 't', 'i', 'n', 'u', 'c']
      · simp [h2]
      · simp [h1, h2, spanS]

theorem factStep_link (ns : String) (rels : Dict (List Char) (List Char)) {x y : Rs3Xml} {p : List Char} (hp : y.parent = some p) (f : Facts) :
    factStep ns rels (rstId ns x.id) f (.link y p) = if y.parent = some x.id then linkFacts rels f y else f := by
  simp only [factStep]
  by_cases hx : p = x.id
  · subst hx
    rw [if_pos rfl, if_pos hp]
    unfold linkFacts
    have h1 := types_span_iff rels y hp
    rw [types_parent rels hp]
    by_cases hk : f.known = true
    · rw [if_pos hk, if_pos hk]
      by_cases hs : y.role rels = .span
      · rw [if_neg (show ¬ (ownType rels y ≠ spanS) from not_not.2 (h1.2 hs)), if_neg (not_not.2 hs)]
      · rw [if_pos (show ownType rels y ≠ spanS from fun e => hs (h1.1 e)), if_pos hs]
        cases hr : y.role rels with
        | span => exact (hs hr).elim
        | satellite => simp
        | nucleus => simp
    · rw [if_neg hk, if_neg hk]
  · rw [if_neg (fun e => hx (rstId_inj e)), if_neg (by rw [hp]; simpa using hx)]

/-- the effect of other elements on the facts about `x` -/
theorem facts_others (ns : String) (rels : Dict (List Char) (List Char)) {x : Rs3Xml} (ys : List Rs3Xml) (h : ∀ y ∈ ys, y.id ≠ x.id) (f : Facts) :
    (ys.flatMap evsOf).foldl (factStep ns rels (rstId ns x.id)) f = (ys.filter (fun y => decide (ChildOf y x))).foldl (linkFacts rels) f := by
  induction ys generalizing f with
  | nil => rfl
  | cons y ys ih =>
    rw [List.flatMap_cons, List.foldl_append]
    have hstep : (evsOf y).foldl (factStep ns rels (rstId ns x.id)) f = if y.parent = some x.id then linkFacts rels f y else f := by
      unfold evsOf
      have hd : factStep ns rels (rstId ns x.id) f (.decl y) = f := by
        simp only [factStep]
        rw [if_neg (fun e => h y (by simp) (rstId_inj e))]
      rw [List.foldl_cons, hd]
      cases hp : y.parent with
      | none => simp
      | some p =>
        simp only [List.foldl_cons, List.foldl_nil]
        rw [factStep_link ns rels hp, hp]
    rw [hstep, ih (fun z hz => h z (by simp [hz]))]
    by_cases hc : y.parent = some x.id
    · rw [if_pos hc, List.filter_cons_of_pos (by simp [ChildOf, hc])]
      rfl
    · rw [if_neg hc, List.filter_cons_of_neg (by simp [ChildOf, hc])]

theorem foldl_link_known (rels : Dict (List Char) (List Char)) (ys : List Rs3Xml) (s r : Option (List Char)) :
    ys.foldl (linkFacts rels) ⟨true, s, r⟩ = ⟨true, if (∃ y ∈ ys, y.role rels = .satellite) then some ['n', 'u', 'c', 'l', 'e', 'u', 's'] else s, (match (ys.filter (fun y => decide (y.role rels ≠ .span))).getLast? with | some y => y.relname | none => r)⟩ := by
  induction ys using List.reverseRecOn with
  | nil => simp
  | append_singleton ys y ih =>
    rw [List.foldl_append, ih]
    simp only [List.foldl_cons, List.foldl_nil, linkFacts, if_true, List.filter_append]
    cases hr : y.role rels with
    | span => simp [hr, or_and_right, exists_or]
    | satellite =>
      rw [if_pos (by decide), if_pos (Eq.refl Role.satellite), if_pos (show ∃ z, z ∈ ys ++ [y] ∧ z.role rels = .satellite from ⟨y, by simp, hr⟩)]
      simp [hr]
    | nucleus =>
      simp [hr, or_and_right, exists_or]

/-- the last of the elements that is a satellite or a nucleus of a multinuclear relation -/
def lastRelation (rels : Dict (List Char) (List Char)) (ys : List Rs3Xml) : Option Rs3Xml := (ys.filter (fun y => decide (y.role rels ≠ .span))).getLast?

/-- the segment type and the relation name of an element at the end -/
theorem facts_final (ns : String) (rels : Dict (List Char) (List Char)) {doc : Rs3Doc} (h : doc.ReadOk) {pre post : List Rs3Xml} {x : Rs3Xml} (ho : rstOrder doc = pre ++ x :: post) :
    let before := pre.filter (fun y => decide (ChildOf y x))
    let after := (x :: post).filter (fun y => decide (ChildOf y x))
    let f := facts ns rels (rstEvents doc) (rstNode ns x)
    f.seg = some (if (∃ y ∈ after, y.role rels = .satellite) ∨ (x.isSegment = false ∧ x.parent ≠ none ∧ ownType rels x = spanS ∧ ∃ y ∈ before, y.role rels = .satellite) then ['n', 'u', 'c', 'l', 'e', 'u', 's'] else ownType rels x) ∧
    f.rel = (match lastRelation rels (before ++ after) with | some y => y.relname | none => before.head?.bind Rs3Xml.relname) := by
  intro before after f
  have hnd : ((pre ++ x :: post).map Rs3Xml.id).Nodup := by
    rw [← ho]
    exact ((rstOrder_perm doc).map _).nodup_iff.2 h.unique
  rw [List.map_append, List.map_cons, List.nodup_append, List.nodup_cons] at hnd
  have hpre : ∀ y ∈ pre, y.id ≠ x.id := fun y hy e => hnd.2.2 _ (List.mem_map.2 ⟨y, hy, rfl⟩) _ (by simp) e
  have hpost : ∀ y ∈ post, y.id ≠ x.id := fun y hy e => hnd.2.1.1 (e ▸ List.mem_map.2 ⟨y, hy, rfl⟩)
  -- the fold
  let f1 : Facts := before.foldl (linkFacts rels) ⟨false, none, none⟩
  let f2 : Facts := ⟨true, if x.isSegment then some (ownType rels x) else if x.parent = none then some spanS else if ownType rels x ≠ spanS ∨ f1.seg = none then some (ownType rels x) else f1.seg, f1.rel⟩
  have hf : f = after.foldl (linkFacts rels) f2 := by
    show facts ns rels (rstEvents doc) (rstNode ns x) = _
    unfold facts
    rw [rstEvents_eq, ho, List.flatMap_append, List.foldl_append, List.flatMap_cons, List.foldl_append]
    have e1 : (pre.flatMap evsOf).foldl (factStep ns rels (rstNode ns x)) ⟨false, none, none⟩ = f1 := facts_others ns rels pre hpre _
    rw [e1]
    have e2 : (evsOf x).foldl (factStep ns rels (rstNode ns x)) f1 = if x.parent = some x.id then linkFacts rels f2 x else f2 := by
      unfold evsOf
      have hd : factStep ns rels (rstNode ns x) f1 (.decl x) = f2 := by
        simp only [factStep]
        rw [if_pos (show rstId ns x.id = rstNode ns x from rfl)]
      rw [List.foldl_cons, hd]
      cases hp : x.parent with
      | none => simp
      | some p =>
        simp only [List.foldl_cons, List.foldl_nil]
        have := factStep_link ns rels (x := x) hp f2
        rw [hp] at this
        exact this
    rw [e2]
    have e3 := facts_others ns rels (x := x) post hpost (if x.parent = some x.id then linkFacts rels f2 x else f2)
    refine e3.trans ?_
    by_cases hc : x.parent = some x.id
    · simp only [after]
      rw [if_pos hc, List.filter_cons_of_pos (by simp [ChildOf, hc])]
      rfl
    · simp only [after]
      rw [if_neg hc, List.filter_cons_of_neg (by simp [ChildOf, hc])]
  have hf1 : before = [] ∧ f1 = ⟨false, none, none⟩ ∨ ∃ y ys, before = y :: ys ∧ f1 = ⟨true, if (∃ y ∈ before, y.role rels = .satellite) then some ['n', 'u', 'c', 'l', 'e', 'u', 's'] else if y.role rels = .nucleus then none else some spanS, (match lastRelation rels before with | some y => y.relname | none => y.relname)⟩ := by
    cases hb : before with
    | nil => exact .inl ⟨rfl, by simp [f1, hb]⟩
    | cons y ys =>
      right
      refine ⟨y, ys, rfl, ?_⟩
      simp only [f1, hb, List.foldl_cons]
      have e : linkFacts rels ⟨false, none, none⟩ y = ⟨true, if y.role rels = .satellite then some ['n', 'u', 'c', 'l', 'e', 'u', 's'] else if y.role rels = .nucleus then none else some spanS, y.relname⟩ := by
        unfold linkFacts
        simp
      rw [e, foldl_link_known]
      congr 1
      · by_cases h1 : ∃ z ∈ ys, z.role rels = .satellite
        · rw [if_pos h1, if_pos (by obtain ⟨z, hz, hr⟩ := h1; exact ⟨z, by simp [hz], hr⟩)]
        · rw [if_neg h1]
          by_cases h2 : y.role rels = .satellite
          · rw [if_pos h2, if_pos ⟨y, by simp, h2⟩]
          · rw [if_neg h2, if_neg (show ¬ ∃ z, z ∈ y :: ys ∧ z.role rels = .satellite from ?_)]
            rintro ⟨z, hz, hr⟩
            rcases List.mem_cons.1 hz with rfl | hz
            · exact h2 hr
            · exact h1 ⟨z, hz, hr⟩
      · unfold lastRelation
        by_cases hr : y.role rels = .span
        · rw [List.filter_cons_of_neg (by simp [hr])]
        · rw [List.filter_cons_of_pos (by simp [hr])]
          cases hl : (ys.filter (fun y => decide (y.role rels ≠ .span))).getLast? with
          | none =>
            rw [List.getLast?_eq_none_iff] at hl
            rw [hl]; rfl
          | some z =>
            obtain ⟨zs, hz⟩ := List.getLast?_eq_some_iff.1 hl
            rw [hz]
            simp [List.getLast?_cons]
  rw [hf]
  show (after.foldl (linkFacts rels) ⟨true, f2.seg, f2.rel⟩).seg = _ ∧ (after.foldl (linkFacts rels) ⟨true, f2.seg, f2.rel⟩).rel = _
  rw [foldl_link_known]
  constructor
  · show (if _ then _ else _) = _
    by_cases h1 : ∃ y ∈ after, y.role rels = .satellite
    · rw [if_pos h1, if_pos (.inl h1)]
    · rw [if_neg h1]
      show (if x.isSegment then _ else _) = _
      by_cases hseg : x.isSegment = true
      · rw [if_pos hseg, if_neg]
        rintro (h2 | h2)
        · exact h1 h2
        · rw [hseg] at h2; exact absurd h2.1 (by decide)
      · rw [if_neg hseg]
        have hseg' : x.isSegment = false := by simpa using hseg
        by_cases hp : x.parent = none
        · have hown : ownType rels x = spanS := by
            unfold ownType rstSegmentTypes
            rw [hp]
            cases hk : x.kind with
            | segment t => simp [Rs3Xml.isSegment, hk] at hseg'
            | group o => rfl
          rw [if_pos hp, if_neg, hown]
          rintro (h2 | h2)
          · exact h1 h2
          · exact h2.2.1 hp
        · rw [if_neg hp]
          by_cases hown : ownType rels x = spanS
          · rcases hf1 with ⟨hb, e1⟩ | ⟨y, ys, hb, e1⟩
            · rw [e1, if_pos (.inr rfl), if_neg]
              rintro (h2 | ⟨_, _, _, y, hy, _⟩)
              · exact h1 h2
              · rw [hb] at hy; cases hy
            · rw [e1]
              by_cases h2 : ∃ y ∈ before, y.role rels = .satellite
              · simp only [if_pos h2]
                rw [if_neg (by simp [hown]), if_pos (.inr ⟨hseg', hp, hown, h2⟩)]
              · simp only [if_neg h2]
                rw [if_neg (show ¬ ((∃ y ∈ after, y.role rels = .satellite) ∨ _) by
                  rintro (h3 | h3)
                  · exact h1 h3
                  · exact h2 h3.2.2.2)]
                by_cases h3 : y.role rels = .nucleus
                · simp [h3]
                · simp [h3, hown]
          · rw [if_pos (.inl hown), if_neg]
            rintro (h2 | h2)
            · exact h1 h2
            · exact hown h2.2.2.1
  · show (match lastRelation rels after with | some y => y.relname | none => f1.rel) = _
    have happ : lastRelation rels (before ++ after) = (lastRelation rels after).or (lastRelation rels before) := by
      unfold lastRelation
      rw [List.filter_append, List.getLast?_append]
    rw [happ]
    cases hl : lastRelation rels after with
    | some y => simp
    | none =>
      simp only [Option.none_or]
      rcases hf1 with ⟨hb, e1⟩ | ⟨y, ys, hb, e1⟩
      · rw [e1, hb]; rfl
      · rw [e1, hb]
        cases lastRelation rels (y :: ys) <;> rfl

end DG
end Dg
