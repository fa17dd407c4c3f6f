import Verif.Spec.Exmaralda
import Verif.Lemmas.Script
import Verif.Lemmas.MergeReach
import Verif.Props.C28
import Verif.Lemmas.Chains

namespace Dg
open Dict
namespace DG

theorem lastWrite_none {m : NodeId} {k : String} {s : List Instr} (h : ∀ i ∈ s, i.write m k = none) : lastWrite m k s = none := by
  induction s with
  | nil => rfl
  | cons i s ih => rw [lastWrite, ih (fun j hj => h j (List.mem_cons_of_mem _ hj)), h i (by simp)]; rfl

theorem lastWrite_mem {m : NodeId} {k : String} {s : List Instr} {v : Val} (h : lastWrite m k s = some v) : ∃ i ∈ s, i.write m k = some v := by
  induction s with
  | nil => simp [lastWrite] at h
  | cons i s ih =>
    rw [lastWrite] at h
    cases hs : lastWrite m k s with
    | none => rw [hs] at h; exact ⟨i, by simp, h⟩
    | some w =>
      rw [hs] at h
      obtain ⟨j, hj, hw⟩ := ih (hs.trans h)
      exact ⟨j, List.mem_cons_of_mem _ hj, hw⟩

theorem lastWrite_unique {m : NodeId} {k : String} {s : List Instr} {v : Val} (h1 : ∃ i ∈ s, i.write m k = some v) (h2 : ∀ i ∈ s, ∀ v', i.write m k = some v' → v' = v) : lastWrite m k s = some v := by
  cases hs : lastWrite m k s with
  | some w =>
    obtain ⟨i, hi, hw⟩ := lastWrite_mem hs
    rw [h2 i hi w hw]
  | none =>
    exfalso
    obtain ⟨i, hi, hw⟩ := h1
    induction s with
    | nil => simp at hi
    | cons j s ih =>
      rw [lastWrite] at hs
      obtain ⟨hs1, hs2⟩ := Option.or_eq_none_iff.1 hs
      rcases List.mem_cons.1 hi with rfl | hi
      · rw [hw] at hs2; simp at hs2
      · exact ih (fun i hi => h2 i (List.mem_cons_of_mem _ hi)) hs1 hi

theorem lastWrite_append {m : NodeId} {k : String} {s s' : List Instr} : lastWrite m k (s ++ s') = (lastWrite m k s').or (lastWrite m k s) := by
  induction s with
  | nil => simp [lastWrite]
  | cons i s ih => rw [List.cons_append, lastWrite, ih, lastWrite, Option.or_assoc]

/-! ### layers and attribute dicts as arguments -/

theorem addEdge_default (g : DG) (u v : NodeId) (at' : Attrs) : g.addEdge u v (.atom .none) none .none at' = (Instr.edge u v [g.ns] at').exec g := by
  unfold Instr.exec addEdge
  have : g.checkLayers (.atom .none) = g.checkLayers (.set ([g.ns].map Atom.str)) := by
    rw [checkLayers_strs g (by simp)]; rfl
  rw [this]

/-- an `attr_dict` and keyword arguments are the same (the dict has no key twice) -/
theorem mergeAttrArg_dict (d : Attrs) (ls : List Atom) (e : PyErr) : mergeAttrArg (.dict d) [] ls e = mergeAttrArg .none d ls e := by
  unfold mergeAttrArg
  simp [upd, put]

theorem addNode_dict (g : DG) (n : NodeId) (ls : List String) (d : Attrs) : g.addNode n (.set (ls.map Atom.str)) (.dict d) [] = (Instr.node n ls d).exec g := by
  unfold Instr.exec addNode
  simp only [mergeAttrArg_dict]

/-! ### token IDs -/

theorem tokenid2index_exbT (i : Nat) : tokenid2index (exbT i) = .ok (i : Int) := by
  unfold tokenid2index exbT intOrError
  rw [List.drop_succ_cons, List.drop_zero, pyInt_decimal]

theorem genTokenRange_exbT (a b : Nat) : genTokenRange (exbT a) (exbT b) = .ok ((List.range' a (b - a)).map exbT) := by
  unfold genTokenRange
  rw [tokenid2index_exbT, tokenid2index_exbT]
  show Except.ok _ = _
  congr 1
  unfold pyRange
  rw [List.map_map, List.range'_eq_map_range, List.map_map]
  have : ((b : Int) - (a : Int)).toNat = b - a := by omega
  rw [this]
  apply List.map_congr_left
  intro i _
  show 'T' :: decimalInt ((a : Int) + (i : Int)) = exbT (a + i)
  rw [← Int.natCast_add]
  rfl

theorem isTokenTier_exb : ∀ (es : List XEvent), isTokenTier (es.map XEvent.exb) = .ok (decide (∀ e ∈ es, e.b = e.a + 1))
  | [] => rfl
  | e :: es => by
    rw [List.map_cons, isTokenTier]
    unfold indexDelta
    simp only [XEvent.exb, tokenid2index_exbT, bind, Except.bind, pure, Except.pure]
    have ih := isTokenTier_exb es
    by_cases h : e.b = e.a + 1
    · rw [if_neg (by omega)]
      have e2 : decide (∀ e' ∈ e :: es, e'.b = e'.a + 1) = decide (∀ e' ∈ es, e'.b = e'.a + 1) := by simp [h]
      rw [e2]; exact ih
    · rw [if_pos (by omega)]
      simp [h]

/-! ### the reader makes the calls of the script -/

theorem exbId_exbT (i : Nat) : exbId (exbT i) = tNode i := rfl

theorem foldlM_execs {α : Type} (f : DG → α → Except PyErr DG) (sc : α → List Instr) (P : DG → Prop) (hf : ∀ g x, P g → f g x = execs g (sc x)) (hP : ∀ g x g', P g → f g x = .ok g' → P g') :
    ∀ (xs : List α) (g : DG), P g → xs.foldlM f g = execs g (xs.flatMap sc)
  | [], g, _ => rfl
  | x :: xs, g, hp => by
    rw [List.foldlM_cons, List.flatMap_cons, execs_append, ← hf g x hp]
    cases h : f g x with
    | error e => rfl
    | ok g' => exact foldlM_execs f sc P hf hP xs g' (hP g x g' hp h)

theorem exec_ns_root {g g' : DG} {i : Instr} (h : i.exec g = .ok g') : g'.ns = g.ns ∧ g'.root = g.root := by
  cases i with
  | node n ls at' =>
    obtain ⟨_, _, _, _, hcase⟩ := addNode_ok h
    rcases hcase with ⟨_, rfl⟩ | ⟨_, _, _, _, rfl⟩
    · exact ⟨rfl, rfl⟩
    · exact ⟨rfl, rfl⟩
  | edge u v ls at' =>
    obtain ⟨m1, m2, m3, _⟩ := sameMeta_addEdge' h
    exact ⟨m2, m3⟩
  | attr n k v =>
    obtain ⟨_, _, _, m2, m3, _⟩ := setAttr_frame h
    exact ⟨m2, m3⟩
  | token n => obtain rfl := Except.ok.inj h; exact ⟨rfl, rfl⟩
  | sentence n => obtain rfl := Except.ok.inj h; exact ⟨rfl, rfl⟩

theorem execs_ns_root (s : List Instr) : ∀ {g g' : DG}, execs g s = .ok g' → g'.ns = g.ns ∧ g'.root = g.root := by
  induction s with
  | nil => intro g g' h; obtain rfl := Except.ok.inj h; exact ⟨rfl, rfl⟩
  | cons i s ih =>
    intro g g' h
    rw [execs_cons] at h
    cases h1 : i.exec g with
    | error e => rw [h1] at h; simp [bind, Except.bind] at h
    | ok g1 =>
      rw [h1] at h
      have a := exec_ns_root h1
      have b := ih (show execs g1 s = .ok g' from h)
      exact ⟨b.1.trans a.1, b.2.trans a.2⟩

/-- a loop whose body makes the calls `sc x` in every graph with this namespace and root -/
theorem foldlM_calls {α : Type} {ns : String} {r : NodeId} (f : DG → α → Except PyErr DG) (sc : α → List Instr) (xs : List α) (hf : ∀ g, ∀ x ∈ xs, g.ns = ns → g.root = r → f g x = execs g (sc x)) :
    ∀ g : DG, g.ns = ns → g.root = r → xs.foldlM f g = execs g (xs.flatMap sc) := by
  induction xs with
  | nil => intro g _ _; rfl
  | cons x xs ih =>
    intro g h1 h2
    rw [List.foldlM_cons, List.flatMap_cons, execs_append, ← hf g x (by simp) h1 h2]
    cases h : f g x with
    | error e => rfl
    | ok g' =>
      have := execs_ns_root _ ((hf g x (by simp) h1 h2).symm.trans h)
      exact ih (fun g y hy => hf g y (List.mem_cons_of_mem _ hy)) g' (this.1.trans h1) (this.2.trans h2)

theorem execs_nil (g : DG) : execs g [] = .ok g := rfl

theorem execs_one (g : DG) (i : Instr) : execs g [i] = i.exec g := by
  rw [execs_cons]
  cases i.exec g <;> rfl

/-- `map` to single calls -/
theorem flatMap_one {α : Type} (f : α → Instr) (xs : List α) : xs.flatMap (fun x => [f x]) = xs.map f := by
  induction xs with
  | nil => rfl
  | cons x xs ih => rw [List.flatMap_cons, ih]; rfl

theorem exbEdge_eq {g : DG} {ns : String} (h : g.ns = ns) (u v : NodeId) (t : String) : g.exbEdge u v t = execs g [.edge u v [ns] (edgeType t)] := by
  subst h
  rw [execs_one]
  exact addEdge_default g u v _

theorem exbReadSpan_eq {g : DG} {ns : String} (hns : g.ns = ns) (t : XTier) (i : Nat) (e : XEvent) : g.exbReadSpan t.id i e.exb = execs g (spanScript ns t (e, i)) := by
  unfold exbReadSpan spanScript
  simp only [XEvent.exb]
  rw [genTokenRange_exbT]
  show ((g.addNode (exbSpanId t.id i) (.set ([g.ns, qual g.ns "span"].map Atom.str)) (.dict _) []) >>= _) = _
  rw [addNode_dict, hns, List.cons_append, execs_cons]
  have e0 : (Instr.node (exbSpanId t.id i) [ns, qual ns "span"] [(qual ns "annotation", Val.atom (.str (String.ofList (e.text.getD [])))), ("label", .atom (.str (String.ofList (e.text.getD []))))]) = Instr.node (t.spanNode i) [ns, qual ns "span"] (XEvent.attrs ns e) := rfl
  rw [e0]
  cases h1 : (Instr.node (t.spanNode i) [ns, qual ns "span"] (XEvent.attrs ns e)).exec g with
  | error _ => rfl
  | ok g1 =>
    have m1 := exec_ns_root h1
    show (g1.exbEdge (exbId t.id) (exbSpanId t.id i) "dominates" >>= _) = execs g1 _
    rw [exbEdge_eq (m1.1.trans hns), List.cons_append, List.nil_append]
    show (execs g1 [.edge t.node (t.spanNode i) [ns] (edgeType "dominates")] >>= _) = _
    rw [execs_one, execs_cons]
    cases h2 : (Instr.edge t.node (t.spanNode i) [ns] (edgeType "dominates")).exec g1 with
    | error _ => rfl
    | ok g2 =>
      have m2 := exec_ns_root h2
      show ((List.range' e.a (e.b - e.a)).map exbT).foldlM _ g2 = execs g2 _
      rw [List.foldlM_map, ← flatMap_one]
      refine foldlM_calls (ns := ns) (r := g2.root) _ _ _ ?_ g2 (m2.1.trans (m1.1.trans hns)) rfl
      intro g x _ h _
      exact exbEdge_eq h (t.spanNode i) (tNode x) "spans"

theorem exbReadSpans_eq {ns : String} (t : XTier) : ∀ (es : List XEvent) (i : Nat) {g : DG}, g.ns = ns → exbReadSpans t.id i (es.map XEvent.exb) g = execs g ((es.zipIdx i).flatMap (spanScript ns t))
  | [], i, g, _ => rfl
  | e :: es, i, g, h => by
    rw [List.map_cons, exbReadSpans, List.zipIdx_cons, List.flatMap_cons, execs_append, ← exbReadSpan_eq h]
    cases h1 : g.exbReadSpan t.id i e.exb with
    | error _ => rfl
    | ok g1 =>
      have m1 := execs_ns_root _ ((exbReadSpan_eq h t i e).symm.trans h1)
      exact exbReadSpans_eq t es (i + 1) (m1.1.trans h)

theorem exbReadSpanTier_eq {g : DG} {ns : String} (h : g.ns = ns) (hr : g.root = .str (ns ++ ":root_node")) (t : XTier) :
    g.exbReadSpanTier t.exb = execs g ([.node t.node [ns, qual ns "tier"] (XTier.attrs ns t), .edge (.str (ns ++ ":root_node")) t.node [ns] (edgeType "dominates")] ++ t.events.zipIdx.flatMap (spanScript ns t)) := by
  unfold exbReadSpanTier
  show (g.addNode (exbId t.id) (.set ([g.ns, qual g.ns "tier"].map Atom.str)) (.dict _) [] >>= _) = _
  rw [addNode_dict, h, List.cons_append, execs_cons]
  show ((Instr.node t.node [ns, qual ns "tier"] (XTier.attrs ns t)).exec g >>= _) = _
  cases h1 : (Instr.node t.node [ns, qual ns "tier"] (XTier.attrs ns t)).exec g with
  | error _ => rfl
  | ok g1 =>
    have m1 := exec_ns_root h1
    show (g1.exbEdge g1.root (exbId t.id) "dominates" >>= _) = execs g1 _
    rw [exbEdge_eq (m1.1.trans h), m1.2, hr, List.cons_append, List.nil_append, execs_one, execs_cons]
    show ((Instr.edge (.str (ns ++ ":root_node")) t.node [ns] (edgeType "dominates")).exec g1 >>= _) = _
    cases h2 : (Instr.edge (.str (ns ++ ":root_node")) t.node [ns] (edgeType "dominates")).exec g1 with
    | error _ => rfl
    | ok g2 =>
      have m2 := exec_ns_root h2
      exact exbReadSpans_eq t t.events 0 (m2.1.trans (m1.1.trans h))

theorem exbReadTier_eq {g : DG} {ns : String} (h : g.ns = ns) (hr : g.root = .str (ns ++ ":root_node")) {tokenTier : List Char} {ids : List (List Char)} {t : XTier} (ht : TierOk tokenTier ids t) :
    g.exbReadTier tokenTier t.exb = execs g (tierScript ns tokenTier t) := by
  unfold exbReadTier tierScript
  have ec : t.exb.category = t.category := rfl
  have ee : t.exb.events = t.events.map XEvent.exb := rfl
  by_cases hc : t.category = tokenTier
  · rw [if_pos (ec.trans hc), if_pos hc, ← flatMap_one, ee, List.foldlM_map]
    refine foldlM_calls (ns := ns) (r := .str (ns ++ ":root_node")) _ _ _ ?_ g h hr
    intro g e he hns _
    rw [execs_one]
    unfold exbReadToken
    simp only [XEvent.exb, genTokenRange_exbT]
    show (if _ then _ else _) = _
    have := ht.1 hc e he
    rw [if_neg (by simp; omega), hns]
    rfl
  · rw [if_neg (by rw [ec]; exact hc), if_neg hc, ee, isTokenTier_exb]
    by_cases ho : t.OneToken
    · rw [if_pos ho]
      have : decide (∀ e ∈ t.events, e.b = e.a + 1) = true := decide_eq_true ho
      rw [this]
      show List.foldlM _ g (t.events.map XEvent.exb) = _
      rw [List.foldlM_map, ← flatMap_one]
      refine foldlM_calls (ns := ns) (r := .str (ns ++ ":root_node")) _ _ _ ?_ g h hr
      intro g e he hns _
      rw [execs_one]
      unfold exbReadAnno
      rw [hns]
      rfl
    · rw [if_neg ho]
      have : decide (∀ e ∈ t.events, e.b = e.a + 1) = false := decide_eq_false ho
      rw [this]
      exact exbReadSpanTier_eq h hr t

theorem exbAddTokens_eq {ns : String} (ids : List (List Char)) {g : DG} (h : g.ns = ns) :
    ids.foldlM exbAddToken g = execs g (ids.flatMap (fun i => [.node (.str (String.ofList i)) [ns] [], .token (.str (String.ofList i))])) := by
  refine foldlM_calls (ns := ns) (r := g.root) _ _ _ ?_ g h rfl
  intro g i _ hns _
  unfold exbAddToken
  rw [execs_cons, hns]
  show ((Instr.node (exbId i) [ns] []).exec g >>= _) = ((Instr.node (exbId i) [ns] []).exec g >>= _)
  cases (Instr.node (exbId i) [ns] []).exec g <;> rfl

theorem qual_inj {ns a b : String} (h : qual ns a = qual ns b) : a = b := by
  unfold qual at h
  have := congrArg String.toList h
  simp only [String.toList_append] at this
  exact String.toList_inj.1 (List.append_cancel_left (List.append_cancel_left this))

/-- the calls are fine -/
theorem scriptOk_attrs {has : NodeId → Prop} {xs : List XEvent} {k : String} {f : XEvent → Val} (hk : k ≠ "layers") (h : ∀ e ∈ xs, has (tNode e.a)) : ScriptOk has (xs.map (fun e => .attr (tNode e.a) k (f e))) := by
  induction xs generalizing has with
  | nil => trivial
  | cons e xs ih =>
    refine ⟨⟨h e (by simp), hk⟩, ?_⟩
    exact scriptOk_mono (fun m hm => .inl hm) (ih (fun e he => h e (List.mem_cons_of_mem _ he)))

/-- lists of calls that are fine in any graph -/
theorem scriptOk_free {s : List Instr} (h : ∀ i ∈ s, i.Ok (fun _ => False)) : ∀ {has : NodeId → Prop}, ScriptOk has s := by
  induction s with
  | nil => intro _; trivial
  | cons i s ih =>
    intro has
    refine ⟨?_, ih (fun j hj => h j (List.mem_cons_of_mem _ hj))⟩
    have := h i (by simp)
    cases i with
    | attr n k v => exact this.1.elim
    | node => exact this
    | edge => exact this
    | token => exact this
    | sentence => exact this

theorem scriptOk_flatMap {α : Type} {sc : α → List Instr} {xs : List α} {has : NodeId → Prop} (h : ∀ x ∈ xs, ScriptOk has (sc x)) : ScriptOk has (xs.flatMap sc) := by
  induction xs generalizing has with
  | nil => trivial
  | cons x xs ih =>
    rw [List.flatMap_cons, scriptOk_append]
    exact ⟨h x (by simp), ih (fun y hy => scriptOk_mono (fun m hm => .inl hm) (h y (List.mem_cons_of_mem _ hy)))⟩

theorem qual_layers (ns a : String) : qual ns a ≠ "layers" := qual_ne_plain (by decide)

theorem xtier_attrs_nodup (ns : String) (t : XTier) : (keys (XTier.attrs ns t)).Nodup := by
  unfold XTier.attrs keys
  simp only [List.map_cons, List.map_nil, List.nodup_cons, List.mem_cons, List.not_mem_nil, or_false, not_or, not_false_eq_true, List.nodup_nil, and_true]
  refine ⟨⟨fun h => ?_, fun h => ?_⟩, fun h => ?_⟩ <;> exact absurd (qual_inj h) (by decide)

theorem xevent_attrs_nodup (ns : String) (e : XEvent) : (keys (XEvent.attrs ns e)).Nodup := by
  unfold XEvent.attrs keys
  simp only [List.map_cons, List.map_nil, List.nodup_cons, List.mem_cons, List.not_mem_nil, or_false, not_false_eq_true, List.nodup_nil, and_true]
  exact qual_ne_plain (by decide)

theorem tierScript_ok {ns : String} {tokenTier : List Char} {ids : List (List Char)} {t : XTier} (ht : TierOk tokenTier ids t) {has : NodeId → Prop} (hh : ∀ i ∈ ids, has (.str (String.ofList i))) : ScriptOk has (tierScript ns tokenTier t) := by
  unfold tierScript
  by_cases hc : t.category = tokenTier
  · rw [if_pos hc]
    exact scriptOk_attrs (qual_layers _ _) (fun e he => hh _ (ht.2 (.inl hc) e he))
  · rw [if_neg hc]
    by_cases ho : t.OneToken
    · rw [if_pos ho]
      exact scriptOk_attrs (qual_layers _ _) (fun e he => hh _ (ht.2 (.inr ho) e he))
    · rw [if_neg ho]
      apply scriptOk_free
      intro i hi
      rcases List.mem_append.1 hi with hi | hi
      · simp only [List.mem_cons, List.not_mem_nil, or_false] at hi
        rcases hi with rfl | rfl
        · exact ⟨by simp, xtier_attrs_nodup ns t⟩
        · exact ⟨by simp, by simp [edgeType, keys]⟩
      · obtain ⟨⟨e, j⟩, _, hi⟩ := List.mem_flatMap.1 hi
        unfold spanScript at hi
        rcases List.mem_append.1 hi with hi | hi
        · simp only [List.mem_cons, List.not_mem_nil, or_false] at hi
          rcases hi with rfl | rfl
          · exact ⟨by simp, xevent_attrs_nodup ns e⟩
          · exact ⟨by simp, by simp [edgeType, keys]⟩
        · obtain ⟨j, _, rfl⟩ := List.mem_map.1 hi
          exact ⟨by simp, by simp [edgeType, keys]⟩

theorem exbScript_ok {ns : String} {tokenTier : List Char} {ids : List (List Char)} {ts : List XTier} (ht : ∀ t ∈ ts, TierOk tokenTier ids t) {has : NodeId → Prop} : ScriptOk has (exbScript ns tokenTier ids ts) := by
  unfold exbScript
  rw [scriptOk_append]
  constructor
  · apply scriptOk_free
    intro i hi
    obtain ⟨x, _, hi⟩ := List.mem_flatMap.1 hi
    simp only [List.mem_cons, List.not_mem_nil, or_false] at hi
    rcases hi with rfl | rfl
    · exact ⟨by simp, by simp [keys]⟩
    · trivial
  · apply scriptOk_flatMap
    intro t h
    refine tierScript_ok (ht t h) ?_
    intro i hi
    exact .inr ⟨.node (.str (String.ofList i)) [ns] [], List.mem_flatMap.2 ⟨i, hi, by simp⟩, rfl⟩

theorem inv_exbStart (name ns : String) : Inv (exbStart name ns) ∧ NodesLayered False (exbStart name ns) := by
  have h := inv_init "" "discoursegraph" none
  have h2 := nodesLayered_init False "" "discoursegraph" none
  exact ⟨⟨⟨h.wf.nodesNodup, h.wf.adjKeys, h.wf.nbrsNodup, h.wf.kdNodup, h.wf.kdNonempty, h.wf.target⟩, ⟨h.attrs.1, h.attrs.2⟩, h.edges⟩, h2⟩

/-- Importing a document whose events are as they should be succeeds, and makes exactly the calls of the script. -/
theorem exbRead_built {name ns : String} {tokenTier : List Char} {ignored : List (List Char)} {timeline : List (List Char × Int)} {ts : List XTier}
    (ht : ∀ t ∈ ts, ignored = [] ∨ t.category ∉ ignored → TierOk tokenTier (exbTokenIds ⟨timeline, ts.map XTier.exb⟩) t) :
    ∃ g', exbRead name ns tokenTier ignored ⟨timeline, ts.map XTier.exb⟩ = .ok g' ∧
      Built (exbStart name ns) (exbScript ns tokenTier (exbTokenIds ⟨timeline, ts.map XTier.exb⟩) (ts.filter (fun t => ignored = [] ∨ t.category ∉ ignored))) g' := by
  generalize hids : exbTokenIds ⟨timeline, ts.map XTier.exb⟩ = ids at ht ⊢
  have ht' : ∀ t ∈ ts.filter (fun t => ignored = [] ∨ t.category ∉ ignored), TierOk tokenTier ids t := by
    intro t h
    obtain ⟨h1, h2⟩ := List.mem_filter.1 h
    exact ht t h1 (by simpa using h2)
  obtain ⟨g', he, hb⟩ := execs_built (exbScript ns tokenTier ids (ts.filter (fun t => ignored = [] ∨ t.category ∉ ignored))) (inv_exbStart name ns).1 (inv_exbStart name ns).2 (exbScript_ok ht')
  refine ⟨g', ?_, hb⟩
  rw [← he]
  unfold exbRead exbScript
  rw [hids, execs_append, exbAddTokens_eq (ns := ns) ids rfl]
  have hf : (ts.map XTier.exb).filter (fun t => ignored = [] ∨ t.category ∉ ignored) = (ts.filter (fun t => ignored = [] ∨ t.category ∉ ignored)).map XTier.exb := by
    rw [List.filter_map]; rfl
  show (_ >>= fun g => ((ts.map XTier.exb).filter (fun t => ignored = [] ∨ t.category ∉ ignored)).foldlM (exbReadTier tokenTier) g) = _
  rw [hf]
  cases h1 : execs (exbStart name ns) (ids.flatMap (fun i => [.node (.str (String.ofList i)) [ns] [], .token (.str (String.ofList i))])) with
  | error _ => rfl
  | ok g1 =>
    have m := execs_ns_root _ h1
    show ((ts.filter (fun t => ignored = [] ∨ t.category ∉ ignored)).map XTier.exb).foldlM (exbReadTier tokenTier) g1 = execs g1 _
    rw [List.foldlM_map]
    refine foldlM_calls (ns := ns) (r := .str (ns ++ ":root_node")) _ _ _ ?_ g1 m.1 m.2
    intro g t h hn hr
    exact exbReadTier_eq hn hr (ht' t h)

end DG
end Dg
