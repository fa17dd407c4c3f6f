import Verif.Lemmas.ExmaraldaRead
import Verif.Lemmas.ExmaraldaWrite
import Verif.Lemmas.Rs3Write
import Batteries.Lean.Except

/-! C41: Exmaralda export and import. -/

namespace Dg
open Dict
namespace DG

/-- **C41 (ranges)**.  `gen_token_range("Ta", "Tb")` is exactly `Ta .. Tb-1`, in order. -/
theorem c41_token_range (a b : Nat) : genTokenRange (exbT a) (exbT b) = .ok ((List.range' a (b - a)).map exbT) := genTokenRange_exbT a b

example : genTokenRange (exbT 1) (exbT 5) = .ok [exbT 1, exbT 2, exbT 3, exbT 4] := c41_token_range 1 5

/-! ### import -/

/-- the tiers that are imported -/
def usedTiers (ignored : List (List Char)) (ts : List XTier) : List XTier := ts.filter (fun t => ignored = [] ∨ t.category ∉ ignored)

/-- the points in time of a timeline, sorted by time -/
def timeIds (timeline : List (List Char × Int)) : List (List Char) := (pySorted (fun (x y : List Char × Int) => decide (x.2 ≤ y.2)) timeline).map Prod.fst

/-- **C41 (import: success, tokens, nodes and edges)**.  A document is imported successfully if, in the tiers that are not ignored, events of the token tier cover one token and one-token annotations
refer to points of the timeline.  The tokens of the resulting graph are the points of the timeline, sorted by time; its nodes are these, the root nodes, and a node per span tier and per event of
a span tier; its edges are exactly root → tier → event → covered tokens, with the namespace as only layer and the edge type as only attribute. -/
theorem c41_import (name ns : String) (tokenTier : List Char) (ignored : List (List Char)) (timeline : List (List Char × Int)) (ts : List XTier)
    (ht : ∀ t ∈ usedTiers ignored ts, TierOk tokenTier (timeIds timeline) t) :
    ∃ g', exbRead name ns tokenTier ignored ⟨timeline, ts.map XTier.exb⟩ = .ok g' ∧ g'.name = name ∧ g'.ns = ns ∧ g'.root = .str (ns ++ ":root_node") ∧ g'.sentences = [] ∧
      g'.tokens = (timeIds timeline).map (fun i => NodeId.str (String.ofList i)) ∧
      (∀ m, g'.HasNode m ↔ m = .str "discoursegraph:root_node" ∨ XNode ns tokenTier (timeIds timeline) (usedTiers ignored ts) m) ∧
      (∀ u v ty, XEdge ns tokenTier (usedTiers ignored ts) u v ty → ∃ a, g'.EdgeWith u v a ∧ MatchesArgs a [ns] (edgeType ty)) ∧
      (∀ u v a, g'.EdgeWith u v a → ∃ ty, XEdge ns tokenTier (usedTiers ignored ts) u v ty ∧ MatchesArgs a [ns] (edgeType ty)) := by
  obtain ⟨g', he, hb⟩ := exbRead_built (name := name) (ns := ns) (tokenTier := tokenTier) (ignored := ignored) (timeline := timeline) (ts := ts)
    (fun t h1 h2 => ht t (List.mem_filter.2 ⟨h1, by simpa using h2⟩))
  refine ⟨g', he, hb.name, hb.ns, hb.root, ?_, ?_, ?_, ?_, ?_⟩
  · rw [hb.sentences]
    have : ∀ i ∈ exbScript ns tokenTier (exbTokenIds ⟨timeline, ts.map XTier.exb⟩) (ts.filter (fun t => ignored = [] ∨ t.category ∉ ignored)), i.newSentences = [] := by
      intro i hi
      rw [mem_exbScript] at hi
      rcases hi with ⟨x, hx, rfl | rfl⟩ | ⟨t, ht, hs, e, he, rfl⟩ | ⟨t, ht, hs, rfl | rfl | ⟨j, e, he, rfl | rfl | ⟨k, h1, h2, rfl⟩⟩⟩ <;> rfl
    rw [List.flatMap_eq_nil_iff.2 this]
    rfl
  · rw [hb.tokens, tokens_exbScript]
    rfl
  · intro m
    rw [hb.nodes, mentions_exbScript]
    have : (exbStart name ns).HasNode m ↔ m = .str "discoursegraph:root_node" := by
      show m ∈ [NodeId.str "discoursegraph:root_node"] ↔ _
      simp
    rw [this]
    rfl
  · intro u v ty h
    exact hb.edgeNew u v _ _ (edge_mem_exbScript.2 ⟨rfl, ty, rfl, h⟩)
  · intro u v a h
    rcases hb.edgeOf u v a h with h | ⟨ls, at', hm, hma⟩
    · obtain ⟨k, h⟩ := h
      have : (exbStart name ns).edgeAttrs u v k = none := by
        show (init "" "discoursegraph" none).edgeAttrs u v k = none
        have hi := inv_init "" "discoursegraph" none
        cases he : (init "" "discoursegraph" none).edgeAttrs u v k with
        | none => rfl
        | some b =>
          have := (mem_edges_iff hi.wf u v k b).2 he
          have e0 : (init "" "discoursegraph" none).edges = [] := by decide
          rw [e0] at this
          simp at this
      rw [this] at h
      simp at h
    · obtain ⟨rfl, ty, rfl, h⟩ := edge_mem_exbScript.1 hm
      exact ⟨ty, h, hma⟩

theorem xdistinct_time {tokenTier : List Char} {ids : List (List Char)} {ts : List XTier} (h : XDistinct tokenTier ids ts) {x : List Char} (hx : x ∈ ids) {t : XTier} (ht : t ∈ ts) (hs : SpanTier tokenTier t) :
    NodeId.str (String.ofList x) ≠ t.node ∧ ∀ (j : Nat) e, t.events[j]? = some e → NodeId.str (String.ofList x) ≠ t.spanNode j := by
  have h3 := (List.nodup_append.1 h).2.2
  have hm : t ∈ ts.filter (fun t => SpanTier tokenTier t) := List.mem_filter.2 ⟨ht, by simpa using hs⟩
  constructor
  · exact h3 _ (List.mem_map_of_mem hx) _ (List.mem_flatMap.2 ⟨t, hm, by simp⟩)
  · intro j e he
    have hj : j < t.events.length := (List.getElem?_eq_some_iff.1 he).1
    exact h3 _ (List.mem_map_of_mem hx) _ (List.mem_flatMap.2 ⟨t, hm, List.mem_cons_of_mem _ (List.mem_map_of_mem (List.mem_range.2 hj))⟩)

theorem flatMap_nodup_unique {α β : Type} {f : α → List β} {xs : List α} (h : (xs.flatMap f).Nodup) {x x' : α} (hx : x ∈ xs) (hx' : x' ∈ xs) {y : β} (hy : y ∈ f x) (hy' : y ∈ f x') : x = x' := by
  induction xs with
  | nil => simp at hx
  | cons z xs ih =>
    rw [List.flatMap_cons, List.nodup_append] at h
    rcases List.mem_cons.1 hx with e1 | e1 <;> rcases List.mem_cons.1 hx' with e2 | e2
    · rw [e1, e2]
    · subst e1
      exact absurd rfl (h.2.2 y hy y (List.mem_flatMap.2 ⟨x', e2, hy'⟩))
    · subst e2
      exact absurd rfl (h.2.2 y hy' y (List.mem_flatMap.2 ⟨x, e1, hy⟩))
    · exact ih h.2.1 e1 e2

theorem xdistinct_spans {tokenTier : List Char} {ids : List (List Char)} {ts : List XTier} (h : XDistinct tokenTier ids ts) {t t' : XTier} (ht : t ∈ ts) (hs : SpanTier tokenTier t) (ht' : t' ∈ ts) (hs' : SpanTier tokenTier t') :
    (t.node = t'.node → t = t') ∧ (∀ (j : Nat) e, t'.events[j]? = some e → t.node ≠ t'.spanNode j) ∧
    (∀ (i j : Nat) e e', t.events[i]? = some e → t'.events[j]? = some e' → t.spanNode i = t'.spanNode j → t = t' ∧ e = e') := by
  have h2 := (List.nodup_append.1 h).2.1
  have hm : t ∈ ts.filter (fun t => SpanTier tokenTier t) := List.mem_filter.2 ⟨ht, by simpa using hs⟩
  have hm' : t' ∈ ts.filter (fun t => SpanTier tokenTier t) := List.mem_filter.2 ⟨ht', by simpa using hs'⟩
  have hn : ∀ t : XTier, t.node ∈ t.node :: (List.range t.events.length).map t.spanNode := fun t => by simp
  have hj : ∀ (t : XTier) (j : Nat) e, t.events[j]? = some e → t.spanNode j ∈ t.node :: (List.range t.events.length).map t.spanNode := by
    intro t j e he
    have hj : j < t.events.length := (List.getElem?_eq_some_iff.1 he).1
    exact List.mem_cons_of_mem _ (List.mem_map_of_mem (List.mem_range.2 hj))
  have hnd : ∀ t ∈ ts.filter (fun t => SpanTier tokenTier t), (t.node :: (List.range t.events.length).map t.spanNode).Nodup := by
    intro t hm
    exact (List.nodup_flatMap.1 h2).1 t hm
  refine ⟨?_, ?_, ?_⟩
  · intro e
    exact flatMap_nodup_unique h2 hm hm' (hn t) (by rw [e]; exact hn t')
  · intro j e he heq
    have : t = t' := flatMap_nodup_unique h2 hm hm' (hn t) (by rw [heq]; exact hj t' j e he)
    subst this
    have hlt : j < t.events.length := (List.getElem?_eq_some_iff.1 he).1
    exact (List.nodup_cons.1 (hnd t hm)).1 (by rw [heq]; exact List.mem_map_of_mem (List.mem_range.2 hlt))
  · intro i j e e' he he' heq
    have : t = t' := flatMap_nodup_unique h2 hm hm' (hj t i e he) (by rw [heq]; exact hj t' j e' he')
    subst this
    refine ⟨rfl, ?_⟩
    have hli : i < t.events.length := (List.getElem?_eq_some_iff.1 he).1
    have hlj : j < t.events.length := (List.getElem?_eq_some_iff.1 he').1
    have := List.inj_on_of_nodup_map (List.nodup_cons.1 (hnd t hm)).2 (List.mem_range.2 hli) (List.mem_range.2 hlj) heq
    subst this
    exact Option.some.inj (he.symm.trans he')

theorem exbStart_attr (name ns : String) (m : NodeId) (k : String) (h1 : k ≠ "layers") (h2 : k ≠ "metadata") : (exbStart name ns).nodeAttr m k = none := by
  unfold nodeAttr
  have : (exbStart name ns).nodeAttrs m = if NodeId.str "discoursegraph:root_node" = m then some [("layers", .set [.str "discoursegraph"]), ("metadata", .dict [])] else none := rfl
  rw [this]
  split
  · simp [find, Ne.symm h1, Ne.symm h2]
  · rfl

/-- **C41 (import: token strings and annotations)**.  For an event of a tier of one-token events (`annotation` names the attribute `ns:token` for the token tier, `ns:category` otherwise, and the value):
the token gets the value, if all events at this token that set the same attribute agree. -/
theorem c41_import_annotations (name ns : String) (tokenTier : List Char) (ignored : List (List Char)) (timeline : List (List Char × Int)) (ts : List XTier)
    (ht : ∀ t ∈ usedTiers ignored ts, TierOk tokenTier (timeIds timeline) t) (hd : XDistinct tokenTier (timeIds timeline) (usedTiers ignored ts))
    (g' : DG) (hg : exbRead name ns tokenTier ignored ⟨timeline, ts.map XTier.exb⟩ = .ok g') (t : XTier) (htm : t ∈ usedTiers ignored ts) (hts : ¬ SpanTier tokenTier t) (e : XEvent) (he : e ∈ t.events)
    (hu : ∀ t' ∈ usedTiers ignored ts, ¬ SpanTier tokenTier t' → ∀ e' ∈ t'.events, e'.a = e.a → (annotation ns tokenTier t' e').1 = (annotation ns tokenTier t e).1 →
      (annotation ns tokenTier t' e').2 = (annotation ns tokenTier t e).2) :
    g'.nodeAttr (tNode e.a) (annotation ns tokenTier t e).1 = some (annotation ns tokenTier t e).2 := by
  obtain ⟨g2, he2, hb⟩ := exbRead_built (name := name) (ns := ns) (tokenTier := tokenTier) (ignored := ignored) (timeline := timeline) (ts := ts)
    (fun t h1 h2 => ht t (List.mem_filter.2 ⟨h1, by simpa using h2⟩))
  rw [hg] at he2
  obtain rfl := Except.ok.inj he2
  have hk : (annotation ns tokenTier t e).1 ≠ "layers" := by
    unfold annotation; split <;> exact qual_layers _ _
  have hid : ∀ (t' : XTier), t' ∈ usedTiers ignored ts → ¬ SpanTier tokenTier t' → ∀ e' ∈ t'.events, exbT e'.a ∈ timeIds timeline := by
    intro t' h1 h2 e' he'
    refine (ht t' h1).2 ?_ e' he'
    by_contra hc
    rw [not_or] at hc
    exact h2 hc
  have htn : ∀ i j, tNode i = tNode j → i = j := by
    intro i j h
    unfold tNode at h
    injection h with h
    have := congrArg String.toList h
    simp only [String.toList_ofList] at this
    exact decimal_injective (List.cons.inj this).2
  rw [hb.attr _ _ hk, lastWrite_unique (v := (annotation ns tokenTier t e).2)]
  · rfl
  · exact write_exbScript.2 (.inl ⟨t, htm, hts, e, he, rfl, rfl⟩)
  · intro i hi v' hw
    rcases write_exbScript.1 ⟨i, hi, hw⟩ with ⟨t', ht', hs', e', he', hm, ha⟩ | ⟨t', ht', hs', ⟨hm, _⟩ | ⟨j, e', he', hm, _⟩⟩
    · have := hu t' ht' hs' e' he' (htn _ _ hm).symm (by rw [ha])
      exact (congrArg Prod.snd ha).symm.trans this
    · exact absurd hm (xdistinct_time hd (hid t htm hts e he) ht' hs').1
    · exact absurd hm ((xdistinct_time hd (hid t htm hts e he) ht' hs').2 j e' he')

/-- **C41 (import: nothing else)**.  A token gets no other attribute: an attribute of a point in time comes from an event of a tier of one-token events. -/
theorem c41_import_no_other_annotations (name ns : String) (tokenTier : List Char) (ignored : List (List Char)) (timeline : List (List Char × Int)) (ts : List XTier)
    (ht : ∀ t ∈ usedTiers ignored ts, TierOk tokenTier (timeIds timeline) t) (hd : XDistinct tokenTier (timeIds timeline) (usedTiers ignored ts))
    (g' : DG) (hg : exbRead name ns tokenTier ignored ⟨timeline, ts.map XTier.exb⟩ = .ok g') (i : List Char) (hi : i ∈ timeIds timeline) (k : String) (hk : k ≠ "layers") (hk2 : k ≠ "metadata") (v : Val)
    (hv : g'.nodeAttr (.str (String.ofList i)) k = some v) :
    ∃ t ∈ usedTiers ignored ts, ¬ SpanTier tokenTier t ∧ ∃ e ∈ t.events, i = exbT e.a ∧ annotation ns tokenTier t e = (k, v) := by
  obtain ⟨g2, he2, hb⟩ := exbRead_built (name := name) (ns := ns) (tokenTier := tokenTier) (ignored := ignored) (timeline := timeline) (ts := ts)
    (fun t h1 h2 => ht t (List.mem_filter.2 ⟨h1, by simpa using h2⟩))
  rw [hg] at he2
  obtain rfl := Except.ok.inj he2
  rw [hb.attr _ _ hk, exbStart_attr _ _ _ _ hk hk2, Option.or_none] at hv
  obtain ⟨j, hj, hw⟩ := lastWrite_mem hv
  rcases write_exbScript.1 ⟨j, hj, hw⟩ with ⟨t', ht', hs', e', he', hm, ha⟩ | ⟨t', ht', hs', ⟨hm, _⟩ | ⟨j, e', he', hm, _⟩⟩
  · refine ⟨t', ht', hs', e', he', ?_, ha⟩
    unfold tNode at hm
    injection hm with hm
    exact String.ofList_injective hm
  · exact absurd hm (xdistinct_time hd hi ht' hs').1
  · exact absurd hm ((xdistinct_time hd hi ht' hs').2 j e' he')

/-- **C41 (import: spans)**.  The node of a span tier has the category, type and display name of the tier; the node of an event has its text (or the empty string) as annotation and label. -/
theorem c41_import_spans (name ns : String) (tokenTier : List Char) (ignored : List (List Char)) (timeline : List (List Char × Int)) (ts : List XTier)
    (ht : ∀ t ∈ usedTiers ignored ts, TierOk tokenTier (timeIds timeline) t) (hd : XDistinct tokenTier (timeIds timeline) (usedTiers ignored ts))
    (g' : DG) (hg : exbRead name ns tokenTier ignored ⟨timeline, ts.map XTier.exb⟩ = .ok g') (t : XTier) (htm : t ∈ usedTiers ignored ts) (hts : SpanTier tokenTier t) :
    (g'.nodeAttr t.node (ns ++ (":" ++ "category")) = some (.atom (.str (String.ofList t.category))) ∧ g'.nodeAttr t.node (ns ++ (":" ++ "type")) = some (.atom (.str (String.ofList t.type))) ∧
      g'.nodeAttr t.node (ns ++ (":" ++ "display-name")) = some (.atom (.str (String.ofList t.display)))) ∧
    ∀ (j : Nat) e, t.events[j]? = some e → g'.nodeAttr (t.spanNode j) (ns ++ (":" ++ "annotation")) = some e.label ∧ g'.nodeAttr (t.spanNode j) "label" = some e.label := by
  obtain ⟨g2, he2, hb⟩ := exbRead_built (name := name) (ns := ns) (tokenTier := tokenTier) (ignored := ignored) (timeline := timeline) (ts := ts)
    (fun t h1 h2 => ht t (List.mem_filter.2 ⟨h1, by simpa using h2⟩))
  rw [hg] at he2
  obtain rfl := Except.ok.inj he2
  have hid : ∀ (t' : XTier), t' ∈ usedTiers ignored ts → ¬ SpanTier tokenTier t' → ∀ e' ∈ t'.events, exbT e'.a ∈ timeIds timeline := by
    intro t' h1 h2 e' he'
    refine (ht t' h1).2 ?_ e' he'
    by_contra hc
    rw [not_or] at hc
    exact h2 hc
  have hnode : ∀ k v, k ≠ "layers" → find (XTier.attrs ns t) k = some v → g'.nodeAttr t.node k = some v := by
    intro k v hk hf
    rw [hb.attr _ _ hk, lastWrite_unique (v := v)]
    · rfl
    · exact write_exbScript.2 (.inr ⟨t, htm, hts, .inl ⟨rfl, hf⟩⟩)
    · intro i hi v' hw
      rcases write_exbScript.1 ⟨i, hi, hw⟩ with ⟨t', ht', hs', e', he', hm, ha⟩ | ⟨t', ht', hs', ⟨hm, hf'⟩ | ⟨j, e', he', hm, _⟩⟩
      · exact absurd hm.symm (xdistinct_time hd (hid t' ht' hs' e' he') htm hts).1
      · have := (xdistinct_spans hd htm hts ht' hs').1 hm
        subst this
        exact Option.some.inj (hf'.symm.trans hf)
      · exact absurd hm ((xdistinct_spans hd htm hts ht' hs').2.1 j e' he')
  have hspan : ∀ (j : Nat) e k v, t.events[j]? = some e → k ≠ "layers" → find (XEvent.attrs ns e) k = some v → g'.nodeAttr (t.spanNode j) k = some v := by
    intro j e k v he hk hf
    rw [hb.attr _ _ hk, lastWrite_unique (v := v)]
    · rfl
    · exact write_exbScript.2 (.inr ⟨t, htm, hts, .inr ⟨j, e, he, rfl, hf⟩⟩)
    · intro i hi v' hw
      rcases write_exbScript.1 ⟨i, hi, hw⟩ with ⟨t', ht', hs', e', he', hm, ha⟩ | ⟨t', ht', hs', ⟨hm, hf'⟩ | ⟨j', e', he', hm, hf'⟩⟩
      · exact absurd hm.symm ((xdistinct_time hd (hid t' ht' hs' e' he') htm hts).2 j e he)
      · exact absurd hm.symm ((xdistinct_spans hd ht' hs' htm hts).2.1 j e he)
      · obtain ⟨_, rfl⟩ := (xdistinct_spans hd htm hts ht' hs').2.2 j j' e e' he he' hm
        exact Option.some.inj (hf'.symm.trans hf)
  have n1 : qual ns "category" ≠ qual ns "type" := fun h => absurd (qual_inj h) (by decide)
  have n2 : qual ns "category" ≠ qual ns "display-name" := fun h => absurd (qual_inj h) (by decide)
  have n3 : qual ns "type" ≠ qual ns "display-name" := fun h => absurd (qual_inj h) (by decide)
  refine ⟨⟨hnode _ _ (qual_layers _ _) ?_, hnode _ _ (qual_layers _ _) ?_, hnode _ _ (qual_layers _ _) ?_⟩, fun j e he => ⟨hspan j e _ _ he (qual_layers _ _) ?_, hspan j e _ _ he (by decide) ?_⟩⟩
  · show find (XTier.attrs ns t) (qual ns "category") = _
    simp [XTier.attrs]
  · show find (XTier.attrs ns t) (qual ns "type") = _
    simp [XTier.attrs, find, n1]
  · show find (XTier.attrs ns t) (qual ns "display-name") = _
    simp [XTier.attrs, find, n2, n3]
  · show find (XEvent.attrs ns e) (qual ns "annotation") = _
    simp [XEvent.attrs]
  · have : qual ns "annotation" ≠ "label" := qual_ne_plain (by decide)
    simp [XEvent.attrs, find, this]

/-! ### export -/

theorem forall₂_ids {α : Type} {P : α → XTier → Prop} {f : α → List Char} {ps : List α} {cs : List XTier} (h : List.Forall₂ (fun p t => P p t ∧ t.id = f p) ps cs) : cs.map XTier.id = ps.map f := by
  induction h with
  | nil => rfl
  | cons hh _ ih => rw [List.map_cons, List.map_cons, ih, hh.2]


/-- **C41 (export)**.  If the export succeeds, the document has the points in time T0 .. Tn for n tokens, and consists of
the token tier (one event `[Ti, Ti+1)` with the token string per token, in order),
one tier per attribute of a token that is neither structural nor in the list of ignored names (with an event for each token having it),
one tier per (informative) annotation layer, with an event for each node of the layer that spans tokens, from its first to after its last token, with the node's label, and
one tier per pointing chain of length at least 3, with an event for each element that spans tokens.
The tier IDs are different.  (Token IDs must be ordered naturally, as `get_span` sorts them by name.) -/
theorem c41_export (g : DG) (hr : Reachable g) (hl : AllLayered g) (nd : g.tokens.Nodup) (ho : g.NaturalTokens) (fuel : Nat) (rr : Bool) (d : Exb) (h : exbWrite fuel g rr = .ok d) :
    d.timeline = (List.range (g.tokens.length + 1)).map (fun i => (exbT i, (i : Int))) ∧
    ∃ (strs attribs layers : List String) (chains : List (List NodeId)) (as ls cs : List XTier), d.tiers = (tokTier strs :: (as ++ ls ++ cs)).map XTier.exb ∧ ((tokTier strs :: (as ++ ls ++ cs)).map XTier.id).Nodup ∧
      (∀ t ∈ tokTier strs :: (as ++ ls ++ cs), ∃ c, t.id = exbTie c) ∧ g.HasTokens strs ∧
      attribs.Nodup ∧ (∀ a, a ∈ attribs ↔ ExportedAttrib a ∧ ∃ t ∈ g.tokens, ∃ v, g.nodeAttr t a = some v) ∧ List.Forall₂ g.AttribTier attribs as ∧
      layers.Nodup ∧ (∀ l, l ∈ layers ↔ ((∃ n, g.NodeLayer n (.str l)) ∨ ∃ u v k, g.EdgeLayer u v k (.str l)) ∧ (rr = true → isInformative l = true)) ∧ List.Forall₂ g.LayerTier layers ls ∧
      getPointingChains fuel g none = .ok chains ∧ List.Forall₂ g.ChainTier (chains.zipIdx.filter (fun p => 3 ≤ p.1.length)) cs := by
  unfold exbWrite at h
  obtain ⟨D, h1, h⟩ := bind_ok_split h
  obtain ⟨toks, h2, h⟩ := bind_ok_split h
  obtain ⟨at1, h3, h⟩ := bind_ok_split h
  obtain ⟨lay, h4, h⟩ := bind_ok_split h
  obtain ⟨ls, h5, h⟩ := bind_ok_split h
  obtain ⟨lt, h6, h⟩ := bind_ok_split h
  obtain ⟨chains, h7, h⟩ := bind_ok_split h
  obtain ⟨ct, h8, h⟩ := bind_ok_split h
  obtain rfl := Except.ok.inj h
  have hD := tokenAttribs_ok hr.inv g.tokens [] [] D (attribsOf_nil g) (by simpa using nd) h1
  rw [List.nil_append] at hD
  obtain ⟨strs, hstrs, rfl⟩ := exbTokenEvents_ok g.tokens 0 toks h2
  have hin : ∀ p ∈ D, (keys p.2).Nodup ∧ (∀ t v, find p.2 t = some v ↔ t ∈ g.tokens ∧ g.nodeAttr t p.1 = some v) ∧ ExportedAttrib p.1 ∧ ∃ t ∈ g.tokens, ∃ v, g.nodeAttr t p.1 = some v := by
    intro p hp
    obtain ⟨a, x⟩ := p
    have hf : find D a = some x := mem_find hD.nodup hp
    obtain ⟨i1, i2⟩ := hD.inner a x hf
    have hff : ∀ t v, find x t = some v ↔ t ∈ g.tokens ∧ ExportedAttrib a ∧ g.nodeAttr t a = some v := by
      intro t v
      rw [← hD.find a t v, hf]
      rfl
    obtain ⟨⟨t0, v0⟩, hx0⟩ := List.exists_mem_of_ne_nil _ i2
    have h0 := (hff t0 v0).1 (mem_find i1 hx0)
    refine ⟨i1, ?_, h0.2.1, t0, h0.1, v0, h0.2.2⟩
    intro t v
    rw [hff]
    simp [h0.2.1]
  obtain ⟨as, rfl, has, hasid⟩ := exbAttribTiers_ok nd D 1 at1 (fun p hp => ⟨(hin p hp).1, (hin p hp).2.1⟩) h3
  obtain ⟨ls', rfl, hls, hlsid⟩ := exbLayerTiers_ok hr hl nd ho ls _ lt h6
  obtain ⟨cs, rfl, hcs⟩ := exbChainTiers_ok hr.inv.wf nd ho chains _ _ ct h8
  obtain ⟨_, _, all, _, _, hall, _, _, hallm⟩ := c12_get_annotation_layers g hr hl
  rw [h4] at hall
  obtain rfl := Except.ok.inj hall
  obtain ⟨l1, l2⟩ := exbLayers_ok lay ls h5
  simp only [List.length_map, Nat.sub_zero] at hasid hlsid hcs
  have hcid : ∃ js : List Nat, js.Sublist (List.range' 0 chains.length) ∧ cs.map XTier.id = js.map (fun j => exbTie (1 + as.length + ls'.length + j)) := by
    refine ⟨(chains.zipIdx.filter (fun p => 3 ≤ p.1.length)).map Prod.snd, ?_, ?_⟩
    · have := (List.filter_sublist (l := chains.zipIdx) (p := fun p => decide (3 ≤ p.1.length))).map Prod.snd
      rwa [List.zipIdx_map_snd] at this
    · rw [List.map_map]
      exact forall₂_ids hcs
  obtain ⟨js, hjs, hcid⟩ := hcid
  have htie : ∀ i j, exbTie i = exbTie j → i = j := fun i j h => decimal_injective (List.append_cancel_left h)
  have hids : (tokTier strs :: (as ++ ls' ++ cs)).map XTier.id = (0 :: (List.range' 1 as.length ++ List.range' (1 + as.length) ls'.length ++ js.map (fun j => 1 + as.length + ls'.length + j))).map exbTie := by
    rw [List.map_cons, List.map_append, List.map_append, hasid, hlsid, hcid, List.map_cons, List.map_append, List.map_append, List.map_map]
    rfl
  refine ⟨rfl, strs, keys D, ls, chains, as, ls', cs, ?_, ?_, ?_, hstrs, hD.nodup, ?_, has, l1 (getAnnotationLayers_nodup h4), ?_, hls, h7, hcs.imp (fun _ _ h => h.1)⟩
  · rw [List.map_cons, List.map_append, List.map_append]
    unfold tokTier XTier.exb
    rw [List.map_map]
    rfl
  · rw [hids]
    refine List.Nodup.map (fun i j h => htie i j h) ?_
    rw [List.nodup_cons, List.nodup_append, List.nodup_append]
    refine ⟨?_, ⟨List.nodup_range', List.nodup_range', ?_⟩, ?_, ?_⟩
    · simp only [List.mem_append, List.mem_range', List.mem_map, not_or]
      refine ⟨⟨?_, ?_⟩, ?_⟩
      · rintro ⟨i, _, h⟩; omega
      · rintro ⟨i, _, h⟩; omega
      · rintro ⟨i, _, h⟩; omega
    · intro a ha b hb
      rw [List.mem_range'] at ha hb
      obtain ⟨i, hi, rfl⟩ := ha
      obtain ⟨j, hj, rfl⟩ := hb
      omega
    · refine List.Nodup.map (fun i j h => by omega) (hjs.nodup List.nodup_range')
    · intro a ha b hb
      rw [List.mem_append, List.mem_range', List.mem_range'] at ha
      obtain ⟨j, hj, rfl⟩ := List.mem_map.1 hb
      rcases ha with ⟨i, hi, rfl⟩ | ⟨i, hi, rfl⟩ <;> omega
  · intro t ht
    have := List.mem_map_of_mem (f := XTier.id) ht
    rw [hids] at this
    obtain ⟨c, _, hc⟩ := List.mem_map.1 this
    exact ⟨c, hc.symm⟩
  · intro a
    constructor
    · intro ha
      obtain ⟨⟨a', x⟩, hp, rfl⟩ := List.mem_map.1 ha
      exact (hin _ hp).2.2
    · rintro ⟨he, t, ht, v, hv⟩
      have := (hD.find a t v).2 ⟨ht, he, hv⟩
      rw [mem_keys_iff]
      cases hx : find D a with
      | none => rw [hx] at this; simp at this
      | some x => exact ⟨x, rfl⟩
  · intro l
    rw [l2, hallm]

/-! ### export followed by import -/

/-- an event after the file was written and parsed -/
def xReparsed (e : XEvent) : XEvent := ⟨e.a, e.b, if e.text = some [] then none else e.text⟩

/-- a tier after the file was written and parsed -/
def tReparsed (t : XTier) : XTier := ⟨t.id, t.category, t.type, t.display, t.events.map xReparsed⟩

theorem reparsed_tiers (tl : List (List Char × Int)) (ts : List XTier) : Exb.reparsed ⟨tl, ts.map XTier.exb⟩ = ⟨tl, (ts.map tReparsed).map XTier.exb⟩ := by
  unfold Exb.reparsed
  simp only [List.map_map]
  congr 1
  apply List.map_congr_left
  intro t _
  unfold XTier.exb tReparsed
  simp only [Function.comp_apply, List.map_map]
  congr 1

theorem xReparsed_label (e : XEvent) : (xReparsed e).label = e.label := by
  unfold XEvent.label xReparsed
  by_cases h : e.text = some []
  · simp [h]
  · simp [h]

theorem tReparsed_oneToken (t : XTier) : (tReparsed t).OneToken ↔ t.OneToken := by
  unfold XTier.OneToken tReparsed
  simp [xReparsed]

theorem sep_cancel {c : Char} : ∀ {a a' b b' : List Char}, c ∉ a → c ∉ a' → a ++ c :: b = a' ++ c :: b' → a = a' ∧ b = b'
  | [], [], b, b', _, _, h => ⟨rfl, (List.cons.inj h).2⟩
  | [], x :: a', b, b', _, h2, h => absurd (show c ∈ x :: a' by rw [(List.cons.inj h).1]; simp) h2
  | x :: a, [], b, b', h1, _, h => absurd (show c ∈ x :: a by rw [← (List.cons.inj h).1]; simp) h1
  | x :: a, y :: a', b, b', h1, h2, h => by
    obtain ⟨e1, e2⟩ := List.cons.inj h
    obtain ⟨e3, e4⟩ := sep_cancel (fun hm => h1 (List.mem_cons_of_mem _ hm)) (fun hm => h2 (List.mem_cons_of_mem _ hm)) e2
    exact ⟨by rw [e1, e3], e4⟩

theorem underscore_decimal (n : Nat) : '_' ∉ decimal n := fun h => absurd (decimal_digits n _ h) (by decide)

theorem underscore_tie (c : Nat) : '_' ∉ exbTie c := by
  unfold exbTie
  simp [underscore_decimal]

theorem exbT_ne_tie (i c : Nat) (r : List Char) : exbT i ≠ exbTie c ++ r := by
  unfold exbT exbTie
  intro h
  have h2 := (List.cons.inj h).2
  have := decimal_digits i 'I' (by rw [h2]; simp)
  exact absurd this (by decide)

theorem str_inj {a b : List Char} (h : NodeId.str (String.ofList a) = .str (String.ofList b)) : a = b := by
  injection h with h
  exact String.ofList_injective h

/-- documents with the IDs that the export uses have no clashes -/
theorem xdistinct_tie {tokenTier : List Char} {n : Nat} {ts : List XTier} (hid : ∀ t ∈ ts, ∃ c, t.id = exbTie c) (hnd : (ts.map XTier.id).Nodup) :
    XDistinct tokenTier ((List.range n).map exbT) ts := by
  unfold XDistinct
  rw [List.nodup_append]
  refine ⟨?_, ?_, ?_⟩
  · rw [List.map_map]
    refine List.Nodup.map ?_ List.nodup_range
    intro i j h
    exact decimal_injective (List.cons.inj (str_inj h)).2
  · rw [List.nodup_flatMap]
    have hfid : ∀ t ∈ ts.filter (fun t => SpanTier tokenTier t), ∃ c, t.id = exbTie c := fun t ht => hid t (List.mem_filter.1 ht).1
    have hfnd : ((ts.filter (fun t => SpanTier tokenTier t)).map XTier.id).Nodup := (List.filter_sublist.map _).nodup hnd
    generalize ts.filter (fun t => SpanTier tokenTier t) = fs at hfid hfnd
    have hns : ∀ t ∈ fs, '_' ∉ t.id := by
      intro t ht
      obtain ⟨c, hc⟩ := hfid t ht
      rw [hc]
      exact underscore_tie c
    constructor
    · intro t ht
      rw [List.nodup_cons]
      constructor
      · intro hm
        obtain ⟨j, _, hj⟩ := List.mem_map.1 hm
        have := str_inj hj
        exact hns t ht (by rw [← this]; simp)
      · refine List.Nodup.map ?_ List.nodup_range
        intro i j h
        have := List.append_cancel_left (str_inj h)
        exact decimal_injective (List.cons.inj this).2
    · rw [List.Nodup, List.pairwise_map] at hfnd
      refine hfnd.imp_of_mem ?_
      intro t t' ht ht' hne x hx hx'
      rcases List.mem_cons.1 hx with rfl | hx
      · rcases List.mem_cons.1 hx' with h | hx'
        · exact hne (str_inj h)
        · obtain ⟨j, _, hj⟩ := List.mem_map.1 hx'
          have := str_inj hj
          exact hns t ht (by rw [← this]; simp)
      · obtain ⟨i, _, rfl⟩ := List.mem_map.1 hx
        rcases List.mem_cons.1 hx' with h | hx'
        · have := str_inj h
          exact hns t' ht' (by rw [← this]; simp)
        · obtain ⟨j, _, hj⟩ := List.mem_map.1 hx'
          exact hne (sep_cancel (hns t' ht') (hns t ht) (str_inj hj)).1.symm
  · intro a ha b hb hab
    obtain ⟨x, hx, rfl⟩ := List.mem_map.1 ha
    obtain ⟨i, _, rfl⟩ := List.mem_map.1 hx
    obtain ⟨t, ht, hb⟩ := List.mem_flatMap.1 hb
    obtain ⟨c, hc⟩ := hid t (List.mem_filter.1 ht).1
    rcases List.mem_cons.1 hb with rfl | hb
    · have := str_inj hab
      rw [hc] at this
      exact exbT_ne_tie i c [] (by rw [this, List.append_nil])
    · obtain ⟨j, _, rfl⟩ := List.mem_map.1 hb
      have := str_inj hab
      rw [hc] at this
      exact exbT_ne_tie i c _ this

theorem timeIds_range (n : Nat) : timeIds ((List.range n).map (fun i => (exbT i, (i : Int)))) = (List.range n).map exbT := by
  unfold timeIds
  rw [pySorted_of_sorted, List.map_map]
  · rfl
  · rw [List.pairwise_map]
    refine List.pairwise_lt_range.imp ?_
    intro a b h
    simp only [decide_eq_true_eq]
    omega

theorem usedTiers_all (ts : List XTier) : usedTiers [] ts = ts := by
  unfold usedTiers
  rw [List.filter_eq_self]
  simp

/-- the event of a node is unique -/
theorem eventOf_unique {g : DG} {n : NodeId} {e e' : XEvent} (h : g.EventOf n e) (h' : g.EventOf n e') : e.a = e'.a ∧ e.b = e'.b := by
  obtain ⟨m1, a1, a2, a3⟩ := h.first
  obtain ⟨m2, b1, b2, b3⟩ := h'.first
  obtain ⟨m3, i3, c0, c1, c2, c3⟩ := h.last
  obtain ⟨m4, i4, d0, d1, d2, d3⟩ := h'.last
  have h1 := h'.between m1 _ a1 a2 a3
  have h2 := h.between m2 _ b1 b2 b3
  have h3 := h'.between m3 _ c1 c2 c3
  have h4 := h.between m4 _ d1 d2 d3
  omega

/-- **C41 (round trip)**.  Export followed by import (token tier `tok`, nothing ignored) succeeds, provided that no exported attribute or layer has a name ending in `:tok`.
The tokens of the imported graph are T0 .. Tn (one more than the exported graph had, see `c41_fails_extra_token`); if no exported layer has a name ending in `:token`, the first n of them have the
token strings of the exported graph, in order (None for an empty string).
An attribute of a token is found at the same token of the imported graph, if no other tier has its last part as category.  For a layer with a node that does not cover exactly one token, each of its nodes that
covers tokens has a counterpart in the imported graph with its label and with edges to exactly the tokens from its first to its last one. -/
theorem c41_roundtrip_partial (g : DG) (hr : Reachable g) (hl : AllLayered g) (nd : g.tokens.Nodup) (ho : g.NaturalTokens) (fuel : Nat) (rr : Bool) (d : Exb) (h : exbWrite fuel g rr = .ok d)
    (hta : ∀ a, ExportedAttrib a → (∃ t ∈ g.tokens, ∃ v, g.nodeAttr t a = some v) → lastPart a ≠ ['t', 'o', 'k'])
    (htl : ∀ l, ((∃ n, g.NodeLayer n (.str l)) ∨ ∃ u v k, g.EdgeLayer u v k (.str l)) → (rr = true → isInformative l = true) → lastPart l ≠ ['t', 'o', 'k']) (name ns : String) :
    ∃ g', exbRead name ns ['t', 'o', 'k'] [] d.reparsed = .ok g' ∧ g'.tokens = (List.range (g.tokens.length + 1)).map tNode ∧
      ((∀ l, ((∃ n, g.NodeLayer n (.str l)) ∨ ∃ u v k, g.EdgeLayer u v k (.str l)) → (rr = true → isInformative l = true) → lastPart l ≠ ['t', 'o', 'k', 'e', 'n']) →
        ∀ i n s, g.tokens[i]? = some n → g.TokenStr n s → g'.nodeAttr (tNode i) (ns ++ (":" ++ "token")) = some (if s = "" then .atom .none else .atom (.str s))) ∧
      (∀ a, ExportedAttrib a → lastPart a ≠ ['c', 'h', 'a', 'i', 'n'] →
        (∀ a', ExportedAttrib a' → (∃ t ∈ g.tokens, ∃ v, g.nodeAttr t a' = some v) → lastPart a' = lastPart a → a' = a) →
        (∀ l, ((∃ n, g.NodeLayer n (.str l)) ∨ ∃ u v k, g.EdgeLayer u v k (.str l)) → (rr = true → isInformative l = true) → lastPart l ≠ lastPart a) →
        ∀ i n v, g.tokens[i]? = some n → g.nodeAttr n a = some v → g'.nodeAttr (tNode i) (ns ++ (":" ++ String.ofList (lastPart a))) = some v) ∧
      (∀ l, (rr = true → isInformative l = true) → (∃ n0 e0, g.NodeLayer n0 (.str l) ∧ g.EventOf n0 e0 ∧ e0.b ≠ e0.a + 1) →
        ∀ n, g.NodeLayer n (.str l) → (∃ m, g.IsToken m ∧ g.Spans n m) → ∃ m e s, g.EventOf n e ∧ g.LabelOf n s ∧ g'.nodeAttr m "label" = some (.atom (.str (String.ofList s))) ∧
          ∀ j, (∃ a, g'.EdgeWith m (tNode j) a) ↔ e.a ≤ j ∧ j < e.b) := by
  obtain ⟨htime, strs, attribs, layers, chains, as, ls, cs, htiers, hidnd, hid, hstrs, _, hattr, has, _, hlay, hls, _, hcs⟩ := c41_export g hr hl nd ho fuel rr d h
  obtain ⟨tl, tiers⟩ := d
  simp only at htime htiers
  subst htime htiers
  generalize hts : tokTier strs :: (as ++ ls ++ cs) = ts at hidnd hid
  rw [reparsed_tiers]
  have hlen : g.tokens.length = strs.length := hstrs.length_eq
  -- the tiers one by one
  have hevA : ∀ t ∈ ts, ∀ e ∈ t.events, e.a < g.tokens.length := by
    intro t ht e he
    rw [← hts] at ht
    rcases List.mem_cons.1 ht with rfl | ht
    · obtain ⟨p, hp, rfl⟩ := List.mem_map.1 he
      have := List.mem_zipIdx hp
      show p.2 < g.tokens.length
      omega
    · have hev : ∀ n, g.EventOf n e → e.a < g.tokens.length := by
        intro n hh
        obtain ⟨m, hm, _⟩ := hh.first
        exact (List.getElem?_eq_some_iff.1 hm).1
      rcases List.mem_append.1 ht with ht | ht
      · rcases List.mem_append.1 ht with ht | ht
        · obtain ⟨a, _, hat⟩ := forall₂_mem_right has ht
          obtain ⟨n, s, h1, _⟩ := (hat.events e).1 he
          exact (List.getElem?_eq_some_iff.1 h1).1
        · obtain ⟨l, _, hlt⟩ := forall₂_mem_right hls ht
          obtain ⟨ns, _, _, hf⟩ := hlt.events
          obtain ⟨n, _, hn⟩ := forall₂_mem_right hf he
          exact hev n hn.1
      · obtain ⟨l, _, hlt⟩ := forall₂_mem_right hcs ht
        obtain ⟨ns, _, _, hf⟩ := hlt.events
        obtain ⟨n, _, hn⟩ := forall₂_mem_right hf he
        exact hev _ hn.1
  have hcat : ∀ t ∈ ts, t.category = ['t', 'o', 'k'] → t = tokTier strs := by
    intro t ht hc
    rw [← hts] at ht
    rcases List.mem_cons.1 ht with rfl | ht
    · rfl
    · exfalso
      rcases List.mem_append.1 ht with ht | ht
      · rcases List.mem_append.1 ht with ht | ht
        · obtain ⟨a, ha, hat⟩ := forall₂_mem_right has ht
          have := (hattr a).1 ha
          exact hta a this.1 this.2 (hat.category.symm.trans hc)
        · obtain ⟨l, hlm, hlt⟩ := forall₂_mem_right hls ht
          have := (hlay l).1 hlm
          exact htl l this.1 this.2 (hlt.category.symm.trans hc)
      · obtain ⟨l, _, hlt⟩ := forall₂_mem_right hcs ht
        have := hlt.category.symm.trans hc
        exact absurd this (by decide)
  have hone : (tokTier strs).OneToken := by
    intro e he
    obtain ⟨p, _, rfl⟩ := List.mem_map.1 he
    rfl
  have hused : usedTiers [] (ts.map tReparsed) = ts.map tReparsed := usedTiers_all _
  have hok : ∀ t ∈ usedTiers [] (ts.map tReparsed), TierOk ['t', 'o', 'k'] (timeIds ((List.range (g.tokens.length + 1)).map (fun i => (exbT i, (i : Int))))) t := by
    intro t ht
    rw [hused] at ht
    obtain ⟨t0, ht0, rfl⟩ := List.mem_map.1 ht
    refine ⟨fun hc => ?_, fun _ e he => ?_⟩
    · rw [tReparsed_oneToken, hcat t0 ht0 hc]
      exact hone
    · rw [timeIds_range]
      obtain ⟨e0, he0, rfl⟩ := List.mem_map.1 he
      have := hevA t0 ht0 e0 he0
      exact List.mem_map_of_mem (List.mem_range.2 (by show e0.a < _; omega))
  have hdist : XDistinct ['t', 'o', 'k'] (timeIds ((List.range (g.tokens.length + 1)).map (fun i => (exbT i, (i : Int))))) (usedTiers [] (ts.map tReparsed)) := by
    rw [hused, timeIds_range]
    refine xdistinct_tie ?_ ?_
    · intro t ht
      obtain ⟨t0, ht0, rfl⟩ := List.mem_map.1 ht
      exact hid t0 ht0
    · rw [List.map_map]
      exact hidnd
  obtain ⟨g', hg', _, _, _, _, htok, _, hedge1, hedge2⟩ := c41_import name ns ['t', 'o', 'k'] [] ((List.range (g.tokens.length + 1)).map (fun i => (exbT i, (i : Int)))) (ts.map tReparsed) hok
  refine ⟨g', hg', ?_, ?_, ?_, ?_⟩
  · rw [htok, timeIds_range, List.map_map]
    rfl
  · intro hno i n s hi hs
    have htm : tReparsed (tokTier strs) ∈ usedTiers [] (ts.map tReparsed) := by
      rw [hused, ← hts]
      exact List.mem_map_of_mem (by simp)
    have hstr : strs[i]? = some s := by
      have hlt : i < g.tokens.length := (List.getElem?_eq_some_iff.1 hi).1
      obtain ⟨hlt2, e1⟩ := List.getElem?_eq_some_iff.1 hi
      have := List.Forall₂.get hstrs hlt (hlen ▸ hlt)
      simp only [List.get_eq_getElem] at this
      rw [e1] at this
      unfold TokenStr at this hs
      rw [hs] at this
      injection this with this
      injection this with this
      injection this with this
      rw [List.getElem?_eq_some_iff]
      exact ⟨hlen ▸ hlt, this.symm⟩
    have hem : xReparsed ⟨i, i + 1, some s.toList⟩ ∈ (tReparsed (tokTier strs)).events := by
      refine List.mem_map_of_mem ?_
      refine List.mem_map.2 ⟨(s, i), ?_, rfl⟩
      rw [List.mem_zipIdx_iff_getElem?]
      exact hstr
    have hnt : ¬ SpanTier ['t', 'o', 'k'] (tReparsed (tokTier strs)) := fun hh => hh.1 rfl
    have := c41_import_annotations name ns ['t', 'o', 'k'] [] _ (ts.map tReparsed) hok hdist g' hg' (tReparsed (tokTier strs)) htm hnt _ hem ?_
    · have ha : annotation ns ['t', 'o', 'k'] (tReparsed (tokTier strs)) (xReparsed ⟨i, i + 1, some s.toList⟩) = (ns ++ (":" ++ "token"), if s = "" then .atom .none else .atom (.str s)) := by
        unfold annotation
        rw [if_pos (show (tReparsed (tokTier strs)).category = ['t', 'o', 'k'] from rfl)]
        unfold xReparsed
        by_cases he : s = ""
        · subst he; rfl
        · have : s.toList ≠ [] := by
            intro hh
            exact he (String.toList_inj.1 (by rw [hh]; rfl))
          simp [he, this, exbVal]
      rw [ha] at this
      exact this
    · intro t' ht' hs' e' he' hpos hkey
      rw [hused] at ht'
      obtain ⟨t0, ht0, rfl⟩ := List.mem_map.1 ht'
      have hkey2 : (annotation ns ['t', 'o', 'k'] (tReparsed (tokTier strs)) (xReparsed ⟨i, i + 1, some s.toList⟩)).1 = qual ns "token" := by
        unfold annotation; rw [if_pos (show (tReparsed (tokTier strs)).category = ['t', 'o', 'k'] from rfl)]; rfl
      rw [hkey2] at hkey
      have hc : t0 = tokTier strs := by
        by_cases hc : t0.category = ['t', 'o', 'k']
        · exact hcat t0 ht0 hc
        · exfalso
          have : (annotation ns ['t', 'o', 'k'] (tReparsed t0) e').1 = qual ns (String.ofList t0.category) := by
            unfold annotation
            rw [if_neg (by exact hc)]
            rfl
          rw [this] at hkey
          have hcc : t0.category = ['t', 'o', 'k', 'e', 'n'] := by
            have := congrArg String.toList (qual_inj hkey)
            simpa using this
          rw [← hts] at ht0
          rcases List.mem_cons.1 ht0 with rfl | ht0
          · exact hc rfl
          rcases List.mem_append.1 ht0 with ht0 | ht0
          · rcases List.mem_append.1 ht0 with ht0 | ht0
            · obtain ⟨a, ha, hat⟩ := forall₂_mem_right has ht0
              have := ((hattr a).1 ha).1.2.2
              rw [← hat.category, hcc] at this
              simp at this
            · obtain ⟨l, hlm, hlt⟩ := forall₂_mem_right hls ht0
              have := (hlay l).1 hlm
              exact hno l this.1 this.2 (hlt.category.symm.trans hcc)
          · obtain ⟨l, _, hlt⟩ := forall₂_mem_right hcs ht0
            have := hlt.category.symm.trans hcc
            exact absurd this (by decide)
      subst hc
      obtain ⟨e0, he0, rfl⟩ := List.mem_map.1 he'
      obtain ⟨⟨s', j⟩, hp, rfl⟩ := List.mem_map.1 he0
      have hji : j = i := hpos
      subst hji
      rw [List.mem_zipIdx_iff_getElem?] at hp
      obtain rfl : s' = s := Option.some.inj (hp.symm.trans hstr)
      rfl
  · intro a hexp hchain hunA hunL i n v hi hv
    have ham : a ∈ attribs := (hattr a).2 ⟨hexp, n, List.mem_of_getElem? hi, v, hv⟩
    obtain ⟨t, htas, hat⟩ := forall₂_mem_left has ham
    have htts : t ∈ ts := by rw [← hts]; simp [htas]
    obtain ⟨s, rfl⟩ := hat.strings n (List.mem_of_getElem? hi) v hv
    have hem0 : (⟨i, i + 1, some s.toList⟩ : XEvent) ∈ t.events := (hat.events _).2 ⟨n, s, hi, hv, rfl, rfl⟩
    have hot : t.OneToken := by
      intro e he
      obtain ⟨_, _, _, _, h3, _⟩ := (hat.events e).1 he
      exact h3
    have hcn : t.category ≠ ['t', 'o', 'k'] := by
      intro hc
      exact hta a hexp ⟨n, List.mem_of_getElem? hi, _, hv⟩ (hat.category.symm.trans hc)
    have htm : tReparsed t ∈ usedTiers [] (ts.map tReparsed) := by
      rw [hused]
      exact List.mem_map_of_mem htts
    have hnt : ¬ SpanTier ['t', 'o', 'k'] (tReparsed t) := fun hh => hh.2 ((tReparsed_oneToken t).2 hot)
    have hann : ∀ e, annotation ns ['t', 'o', 'k'] (tReparsed t) (xReparsed e) = (qual ns (String.ofList (lastPart a)), e.label) := by
      intro e
      unfold annotation
      rw [if_neg (by exact hcn), xReparsed_label]
      show (qual ns (String.ofList t.category), _) = _
      rw [hat.category]
    have := c41_import_annotations name ns ['t', 'o', 'k'] [] _ (ts.map tReparsed) hok hdist g' hg' (tReparsed t) htm hnt _ (List.mem_map_of_mem hem0) ?_
    · rw [hann] at this
      refine Eq.trans this ?_
      simp [XEvent.label]
    · intro t' ht' hs' e' he' hpos hkey
      rw [hused] at ht'
      obtain ⟨t0, ht0, rfl⟩ := List.mem_map.1 ht'
      obtain ⟨e0, he0, rfl⟩ := List.mem_map.1 he'
      rw [hann] at hkey ⊢
      have htt : g.AttribTier a t0 := by
        by_cases hc : t0.category = ['t', 'o', 'k']
        · exfalso
          have e1 := hcat t0 ht0 hc
          subst e1
          have : (annotation ns ['t', 'o', 'k'] (tReparsed (tokTier strs)) (xReparsed e0)).1 = qual ns "token" := by
            unfold annotation; rw [if_pos (show (tReparsed (tokTier strs)).category = ['t', 'o', 'k'] from rfl)]; rfl
          rw [this] at hkey
          have h4 : "token" = String.ofList (lastPart a) := qual_inj hkey
          have h5 : lastPart a = ['t', 'o', 'k', 'e', 'n'] := by
            have := congrArg String.toList h4
            simpa using this.symm
          apply hexp.2.2
          rw [h5]
          simp
        · have : (annotation ns ['t', 'o', 'k'] (tReparsed t0) (xReparsed e0)).1 = qual ns (String.ofList t0.category) := by
            unfold annotation
            rw [if_neg (by exact hc)]
            rfl
          rw [this] at hkey
          have hcc : t0.category = lastPart a := String.ofList_injective (qual_inj hkey)
          rw [← hts] at ht0
          rcases List.mem_cons.1 ht0 with rfl | ht0
          · exact absurd rfl hc
          rcases List.mem_append.1 ht0 with ht0 | ht0
          · rcases List.mem_append.1 ht0 with ht0 | ht0
            · obtain ⟨a', ha', hat'⟩ := forall₂_mem_right has ht0
              have hh := (hattr a').1 ha'
              have haa : a' = a := hunA a' hh.1 hh.2 (hat'.category.symm.trans hcc)
              subst haa
              exact hat'
            · exfalso
              obtain ⟨l, hlm, hlt⟩ := forall₂_mem_right hls ht0
              have := (hlay l).1 hlm
              exact hunL l this.1 this.2 (hlt.category.symm.trans hcc)
          · exfalso
            obtain ⟨l, _, hlt⟩ := forall₂_mem_right hcs ht0
            exact hchain (hcc.symm.trans hlt.category)
      have hann0 : annotation ns ['t', 'o', 'k'] (tReparsed t0) (xReparsed e0) = (qual ns (String.ofList t0.category), e0.label) := by
        unfold annotation
        rw [if_neg (by show ¬ t0.category = _; rw [htt.category, ← hat.category]; exact hcn), xReparsed_label]
        rfl
      rw [hann0]
      obtain ⟨n', s', h1, h2, _, h4⟩ := (htt.events e0).1 he0
      have hpos' : e0.a = i := hpos
      rw [hpos'] at h1
      obtain rfl : n' = n := Option.some.inj (h1.symm.trans hi)
      rw [hv] at h2
      show e0.label = XEvent.label ⟨i, i + 1, some s.toList⟩
      unfold XEvent.label
      rw [h4]
      have : s' = s := by
        injection h2 with h2; injection h2 with h2; injection h2 with h2; exact h2.symm
      rw [this]
  · intro l hinf hnot n hn hspan
    have hlm : l ∈ layers := (hlay l).2 ⟨.inl ⟨n, hn⟩, hinf⟩
    obtain ⟨t, htl', hlt⟩ := forall₂_mem_left hls hlm
    have htts : t ∈ ts := by rw [← hts]; simp [htl']
    obtain ⟨nds, _, hmem, hf⟩ := hlt.events
    have hcn : t.category ≠ ['t', 'o', 'k'] := by
      intro hc
      exact htl l (.inl ⟨n, hn⟩) hinf (hlt.category.symm.trans hc)
    have hspt : SpanTier ['t', 'o', 'k'] (tReparsed t) := by
      refine ⟨hcn, fun ho => ?_⟩
      rw [tReparsed_oneToken] at ho
      obtain ⟨n0, e0, h1, h2, h3⟩ := hnot
      have hn0 : n0 ∈ nds := (hmem n0).2 ⟨h1, by obtain ⟨m, _, hm⟩ := h2.first; exact ⟨m, hm⟩⟩
      obtain ⟨e, he, hev, _⟩ := forall₂_mem_left hf hn0
      obtain ⟨ea, eb⟩ := eventOf_unique hev h2
      apply h3
      rw [← ea, ← eb]
      exact ho e he
    have hnm : n ∈ nds := (hmem n).2 ⟨hn, hspan⟩
    obtain ⟨e, he, hev, s, hs1, hs2⟩ := forall₂_mem_left hf hnm
    obtain ⟨j, hj⟩ := List.mem_iff_getElem?.1 he
    have hj' : (tReparsed t).events[j]? = some (xReparsed e) := by
      show (t.events.map xReparsed)[j]? = _
      rw [List.getElem?_map, hj]
      rfl
    have htm : tReparsed t ∈ usedTiers [] (ts.map tReparsed) := by
      rw [hused]
      exact List.mem_map_of_mem htts
    have hlab := ((c41_import_spans name ns ['t', 'o', 'k'] [] _ (ts.map tReparsed) hok hdist g' hg' (tReparsed t) htm hspt).2 j _ hj').2
    refine ⟨(tReparsed t).spanNode j, e, s, hev, hs2, ?_, ?_⟩
    · rw [hlab, xReparsed_label]
      unfold XEvent.label
      rw [hs1]
      rfl
    · intro k
      constructor
      · rintro ⟨a, ha⟩
        obtain ⟨ty, hx, _⟩ := hedge2 _ _ _ ha
        generalize hu : (tReparsed t).spanNode j = u at hx
        generalize hv : tNode k = v at hx
        cases hx with
        | tier ht' hs' =>
          exfalso
          obtain ⟨c, hc⟩ := hid t htts
          have h1 : (tReparsed t).spanNode j = .str (String.ofList (exbTie c ++ '_' :: decimal j)) := by
            show NodeId.str (String.ofList (t.id ++ '_' :: decimal j)) = _
            rw [hc]
          rw [h1] at hu
          injection hu with hu
          have h2 := congrArg String.toList hu
          have h3 : ':' ∈ exbTie c ++ '_' :: decimal j := by
            rw [String.toList_ofList] at h2
            rw [h2]
            simp
          unfold exbTie at h3
          have hd : ∀ q, ':' ∉ decimal q := fun q hq => absurd (decimal_digits q _ hq) (by decide)
          simp [hd] at h3
        | span ht' hs' he' =>
          exact absurd hu.symm ((xdistinct_spans hdist ht' hs' htm hspt).2.1 j _ hj')
        | @token t' i' j' e' ht' hs' he' h1 h2 =>
          obtain ⟨_, hee⟩ := (xdistinct_spans hdist htm hspt ht' hs').2.2 j i' _ _ hj' he' hu
          have hkj : k = j' := by
            have := str_inj hv
            exact decimal_injective (List.cons.inj this).2
          subst hkj hee
          exact ⟨h1, h2⟩
      · rintro ⟨h1, h2⟩
        obtain ⟨a, ha, _⟩ := hedge1 _ _ _ (XEdge.token (j := k) htm hspt hj' h1 h2)
        exact ⟨a, ha⟩

/-! ### examples and failures -/

/-- a document with tokens (ID, string), a node for each of the `spans` (ID, layer, label, tokens) -/
def sampleExb (tokens : List (String × String)) (spans : List (String × String × String × List String)) : DG :=
  (DG.init "" "doc" none).run (
    tokens.map (fun p => .addNode (.str p.1) (.atom .none) .none [("doc:token", .atom (.str p.2)), ("doc:pos", .atom (.str "X"))]) ++ [.setTokens (tokens.map (fun p => .str p.1))] ++
    spans.map (fun p => .addNode (.str p.1) (.set [.str p.2.1]) .none [("label", .atom (.str p.2.2.1))]) ++
    spans.flatMap (fun p => p.2.2.2.map (fun t => .addEdge (.str p.1) (.str t) (.set [.str p.2.1]) none .none [("edge_type", .atom (.str "spans"))])))

def sampleExb1 : DG := sampleExb [("t9", "Die"), ("t10", "Halle"), ("t11", "ist")] [("n1", "x:np", "NP", ["t9", "t10"]), ("n2", "x:np", "V", ["t11"])]

theorem sampleExb1_reachable : Reachable sampleExb1 := ⟨"", "doc", none, _, by decide, rfl⟩

/-- the exported sample -/
example : exbWrite 20 sampleExb1 true = .ok ⟨[(exbT 0, 0), (exbT 1, 1), (exbT 2, 2), (exbT 3, 3)],
    [⟨exbTie 0, "tok".toList, ['t'], "[tok]".toList, [⟨exbT 0, exbT 1, some "Die".toList⟩, ⟨exbT 1, exbT 2, some "Halle".toList⟩, ⟨exbT 2, exbT 3, some "ist".toList⟩]⟩,
     ⟨exbTie 1, "pos".toList, ['t'], "[doc:pos]".toList, [⟨exbT 0, exbT 1, some ['X']⟩, ⟨exbT 1, exbT 2, some ['X']⟩, ⟨exbT 2, exbT 3, some ['X']⟩]⟩,
     ⟨exbTie 2, "doc".toList, ['t'], "[doc]".toList, [⟨exbT 0, exbT 1, some []⟩, ⟨exbT 1, exbT 2, some []⟩, ⟨exbT 2, exbT 3, some []⟩]⟩,
     ⟨exbTie 3, "np".toList, ['t'], "[x:np]".toList, [⟨exbT 0, exbT 2, some "NP".toList⟩, ⟨exbT 2, exbT 3, some "V".toList⟩]⟩]⟩ := by decide +kernel

/-- the hypotheses of `c41_export` and `c41_roundtrip_partial` hold for the sample -/
example : Reachable sampleExb1 ∧ AllLayered sampleExb1 ∧ sampleExb1.tokens.Nodup ∧ sampleExb1.NaturalTokens ∧ (∃ d, exbWrite 20 sampleExb1 true = .ok d) ∧
    (∀ a, ExportedAttrib a → (∃ t ∈ sampleExb1.tokens, ∃ v, sampleExb1.nodeAttr t a = some v) → lastPart a ≠ ['t', 'o', 'k']) ∧
    (∀ l, ((∃ n, sampleExb1.NodeLayer n (.str l)) ∨ ∃ u v k, sampleExb1.EdgeLayer u v k (.str l)) → lastPart l ∉ [['t', 'o', 'k'], ['t', 'o', 'k', 'e', 'n']]) := by
  have wf := sampleExb1_reachable.inv.wf
  have hlay : AllLayered sampleExb1 := by
    intro n a h
    have hmem := (mem_nodes_iff wf _ _).2 h
    have key : ∀ p ∈ sampleExb1.nodes, (match find p.2 "layers" with | some (.set xs) => xs.all (fun x => match x with | .str _ => true | _ => false) | _ => false) = true := by decide +kernel
    have := key _ hmem
    dsimp only at this
    split at this
    · rename_i xs hx
      refine ⟨xs, hx, ?_⟩
      intro x hxs
      have h2 := List.all_eq_true.1 this x hxs
      split at h2
      · exact ⟨_, rfl⟩
      · simp at h2
    · simp at this
  refine ⟨sampleExb1_reachable, hlay, by decide +kernel, by unfold NaturalTokens; decide +kernel, ?_, ?_, ?_⟩
  · have : (exbWrite 20 sampleExb1 true).toOption.isSome = true := by decide +kernel
    cases h : exbWrite 20 sampleExb1 true with
    | error e => rw [h] at this; simp [Except.toOption] at this
    | ok d => exact ⟨d, rfl⟩
  · rintro a _ ⟨t, ht, v, hv⟩
    have key : ∀ t ∈ sampleExb1.tokens, ∀ p ∈ (sampleExb1.nodeAttrs t).getD [], lastPart p.1 ≠ ['t', 'o', 'k'] := by decide +kernel
    unfold nodeAttr at hv
    cases hn : sampleExb1.nodeAttrs t with
    | none => rw [hn] at hv; simp at hv
    | some b =>
      rw [hn] at hv
      have h2 := key t ht
      rw [hn] at h2
      exact h2 (a, v) (find_some_mem hv)
  · intro l hl
    obtain ⟨_, _, all, _, _, hall, _, _, hm⟩ := c12_get_annotation_layers sampleExb1 sampleExb1_reachable hlay
    have key : (match sampleExb1.getAnnotationLayers with | .ok xs => xs.all (fun x => match x with | .str l => decide (lastPart l ∉ [['t', 'o', 'k'], ['t', 'o', 'k', 'e', 'n']]) | _ => true) | .error _ => false) = true := by decide +kernel
    rw [hall] at key
    have := List.all_eq_true.1 key _ ((hm _).2 hl)
    simpa using this

/-- importing what was exported gives a graph with one token more than there are token strings: `get_tokens()` raises KeyError at the end -/
theorem c41_fails_extra_token : ((do
    let d ← exbWrite 20 sampleExb1 true
    let g ← exbRead "f" "exmaralda" ['t', 'o', 'k'] [] d.reparsed
    return (g.tokens, g.tokenStrings g.tokens) : Except PyErr _)) = .ok ([.str "T0", .str "T1", .str "T2", .str "T3"], .error .key) := by decide +kernel

/-- a layer named `…:token` becomes a tier of category `token`, which overwrites the token strings on import -/
theorem c41_fails_token_layer : ((do
    let d ← exbWrite 20 (sampleExb [("t1", "a"), ("t2", "b")] [("n", "ptb:token", "L", ["t1"])]) true
    let g ← exbRead "f" "exmaralda" ['t', 'o', 'k'] [] d.reparsed
    return (g.nodeAttr (.str "T0") "exmaralda:token", g.nodeAttr (.str "T1") "exmaralda:token") : Except PyErr _)) = .ok (some (.atom (.str "L")), some (.atom (.str "b"))) := by decide +kernel

/-- a layer named `…:tok` with a node of several tokens cannot be imported -/
theorem c41_fails_tok_layer : ((do
    let d ← exbWrite 20 (sampleExb [("t1", "a"), ("t2", "b")] [("n", "x:tok", "L", ["t1", "t2"])]) true
    let g ← exbRead "f" "exmaralda" ['t', 'o', 'k'] [] d.reparsed
    return g.tokens : Except PyErr _)) = .error .assertion := by decide +kernel

/-- attributes of tokens that are not strings, such as the offsets, make the export fail -/
theorem c41_fails_int_attribute : (exbWrite 20 sampleExb1 true).isOk = true ∧ (sampleExb1.addOffsets none).2 = none ∧ exbWrite 20 (sampleExb1.addOffsets none).1 true = .error .type := by
  refine ⟨by decide +kernel, by decide +kernel, by decide +kernel⟩

/-- if the names of the tokens are not in natural order, the event of a node does not cover its tokens (here it starts after it ends) -/
theorem c41_fails_unordered_ids : ((do
    let d ← exbWrite 20 (sampleExb [("b", "1"), ("a", "2"), ("c", "3")] [("n", "x:np", "L", ["b", "a"])]) true
    return ((d.tiers.filter (fun t => t.category = ['n', 'p'])).map ExbTier.events) : Except PyErr _)) = .ok [[⟨exbT 1, exbT 1, some ['L']⟩]] := by decide +kernel

/-- the hypotheses of the import theorems hold for a document with a token tier, a token annotation tier and a span tier -/
def sampleXTiers : List XTier :=
  [⟨exbTie 0, "tok".toList, ['t'], "[tok]".toList, [⟨0, 1, some "Die".toList⟩, ⟨1, 2, some "Halle".toList⟩]⟩, ⟨exbTie 1, "pos".toList, ['t'], "[pos]".toList, [⟨1, 2, some ['N']⟩]⟩,
   ⟨exbTie 2, "np".toList, ['t'], "[np]".toList, [⟨0, 2, some "NP".toList⟩, ⟨1, 2, none⟩]⟩]

example : (∀ t ∈ usedTiers [] sampleXTiers, TierOk "tok".toList (timeIds [(exbT 0, 0), (exbT 1, 1), (exbT 2, 2)]) t) ∧
    XDistinct "tok".toList (timeIds [(exbT 0, 0), (exbT 1, 1), (exbT 2, 2)]) (usedTiers [] sampleXTiers) ∧ SpanTier "tok".toList ⟨exbTie 2, "np".toList, ['t'], "[np]".toList, [⟨0, 2, some "NP".toList⟩, ⟨1, 2, none⟩]⟩ := by
  refine ⟨by decide +kernel, by unfold XDistinct; decide +kernel, by decide +kernel⟩

end DG
end Dg
