import Verif.Spec.Tiger
import Verif.Lemmas.CopyGraph
import Verif.Props.C45

/-! The calls of the TigerXML reader. -/

namespace Dg
open Dict
namespace DG

/-! ### attributes -/

theorem keys_xmlAttrs (p : String) (d : XAttrs) : keys (xmlAttrs p d) = (keys d).map (qual p) := by
  simp [keys, xmlAttrs, Function.comp_def]

theorem xmlAttrs_nodup {p : String} {d : XAttrs} (nd : (keys d).Nodup) : (keys (xmlAttrs p d)).Nodup := by
  rw [keys_xmlAttrs]
  exact List.Nodup.map (fun a b h => qual_inj h) nd

theorem xmlAttrs_plain {p k : String} {d : XAttrs} (hk : ':' ∉ k.toList) : k ∉ keys (xmlAttrs p d) := by
  rw [keys_xmlAttrs]
  intro h
  obtain ⟨x, _, hx⟩ := List.mem_map.1 h
  exact qual_ne_plain hk hx

theorem find_xmlAttrs (p : String) (d : XAttrs) (k : String) : find (xmlAttrs p d) (qual p k) = (find d k).map (fun v => Val.atom (.str v)) := by
  unfold xmlAttrs
  induction d with
  | nil => rfl
  | cons kv d ih =>
    rw [List.map_cons, find, find]
    by_cases h : kv.1 = k
    · rw [if_pos h, if_pos (by rw [h])]; rfl
    · rw [if_neg h, if_neg (fun e => h (qual_inj e)), ih]

theorem tigerFeats_eq {p : String} {d : XAttrs} (nd : (keys d).Nodup) : tigerFeats p d = xmlAttrs p d := by
  unfold tigerFeats addPrefix
  have nd' : (keys (d.map (fun kv => (kv.1, Val.atom (.str kv.2))))).Nodup := by
    have : keys (d.map (fun kv => (kv.1, Val.atom (.str kv.2)))) = keys d := by simp [keys, Function.comp_def]
    rw [this]; exact nd
  rw [addPrefix_spec _ _ [] nd' (by simp [find])]
  unfold xmlAttrs qual
  simp [String.append_assoc]

theorem xmlAttr_ok {d : XAttrs} {k : String} (h : k ∈ keys d) : elemAttr d k = .ok (xval d k) := by
  obtain ⟨v, hv⟩ := (mem_keys_iff _ _).1 h
  unfold elemAttr xval
  rw [hv]; rfl

theorem featAt_ok {p : String} {d : XAttrs} {k : String} (h : k ∈ keys d) : featAt (xmlAttrs p d) (qual p k) = .ok (strV (xval d k)) := by
  obtain ⟨v, hv⟩ := (mem_keys_iff _ _).1 h
  unfold featAt
  rw [find_xmlAttrs]
  unfold xval
  rw [hv]; rfl

theorem mergeAttrArg_append {d at' : Attrs} (nd : (keys at').Nodup) (hd : ∀ k ∈ keys at', k ∉ keys d) (h1 : "layers" ∉ keys d) (h2 : "layers" ∉ keys at') (ls : List Atom) (e : PyErr) :
    mergeAttrArg (.dict d) at' ls e = mergeAttrArg .none (d ++ at') ls e := by
  unfold mergeAttrArg
  simp only
  rw [put_of_not_mem _ _ _ h2, put_of_not_mem (d ++ at') _ _ (by simp [keys] at h1 h2 ⊢; exact ⟨h1, h2⟩), upd_of_disjoint]
  · simp
  · simp only [keys, List.map_append, List.map_cons, List.map_nil]
    rw [List.nodup_append]
    refine ⟨nd, by simp, ?_⟩
    intro a ha b hb
    simp only [List.mem_singleton] at hb
    rintro rfl
    exact h2 (hb ▸ ha)
  · intro k hk
    simp only [keys, List.map_append, List.map_cons, List.map_nil, List.mem_append, List.mem_singleton] at hk
    rcases hk with hk | rfl
    · exact hd k hk
    · exact h1

theorem addEdge_append (g : DG) (u v : NodeId) (ls : List String) {d at' : Attrs} (nd : (keys at').Nodup) (hd : ∀ k ∈ keys at', k ∉ keys d) (h1 : "layers" ∉ keys d) (h2 : "layers" ∉ keys at') :
    g.addEdge u v (.set (ls.map Atom.str)) none (.dict d) at' = (Instr.edge u v ls (d ++ at')).exec g := by
  unfold Instr.exec addEdge
  simp only [mergeAttrArg_append nd hd h1 h2]

theorem addNode_append (g : DG) (n : NodeId) (ls : List String) {d at' : Attrs} (nd : (keys at').Nodup) (hd : ∀ k ∈ keys at', k ∉ keys d) (h1 : "layers" ∉ keys d) (h2 : "layers" ∉ keys at') :
    g.addNode n (.set (ls.map Atom.str)) (.dict d) at' = (Instr.node n ls (d ++ at')).exec g := by
  unfold Instr.exec addNode
  simp only [mergeAttrArg_append nd hd h1 h2]

/-! ### the calls -/

/-- calls for an edge: the target is added if it does not exist -/
def link (p : String) (e : EdgeSpec) : List CInstr := [.ensure e.target [p, qual p "secedge"], .plain (.edge e.source e.target e.layers e.attrs)]

/-- attributes of a terminal -/
def termAttrs (p : String) (t : TigerT) : Attrs := put (xmlAttrs p t.attrs) (qual p "token") (strV (xval t.attrs "word")) ++ [("label", strV (xval t.attrs "word"))]

/-- calls for a terminal -/
def termCalls (p : String) (t : TigerT) : List CInstr := .plain (.node t.node [p, qual p "token"] (termAttrs p t)) :: (termEdges p t).flatMap (link p)

/-- attributes of a nonterminal -/
def ntAttrs (p : String) (t : TigerNt) : Attrs := xmlAttrs p t.attrs ++ [("label", strV (xval t.attrs "cat"))]

/-- calls for a nonterminal -/
def ntCalls (p : String) (toks : List NodeId) (before : List TigerNt) (t : TigerNt) : List CInstr :=
  .declare t.node [p, qual p "syntax"] (ntAttrs p t) :: (ntEdges p toks before t).flatMap (link p)

/-- calls for all nonterminals -/
def ntsCalls (p : String) (toks : List NodeId) : List TigerNt → List TigerNt → List CInstr
  | _, [] => []
  | before, t :: ts => ntCalls p toks before t ++ ntsCalls p toks (before ++ [t]) ts

/-- calls for a sentence -/
def sentCalls (p : String) (s : TigerS) : List CInstr :=
  .plain (.node s.root (rootLayers p) []) :: (s.terms.flatMap (termCalls p) ++ (.plain (.attr s.root "tokens" (idList (sentToks s))) :: ((sentToks s).map (fun n => .plain (.token n)) ++ ntsCalls p s.toks [] s.nts)))

theorem updateNode_meta {g g' : DG} {n : NodeId} {d : Attrs} (h : g.updateNode n d = .ok g') : g'.ns = g.ns ∧ g'.root = g.root := by
  unfold updateNode at h
  split at h
  · cases h
  · obtain rfl := Except.ok.inj h; exact ⟨rfl, rfl⟩

theorem cexec_ns_root {g g' : DG} {c : CInstr} (h : c.exec g = .ok g') : g'.ns = g.ns ∧ g'.root = g.root := by
  cases c with
  | plain i => exact exec_ns_root h
  | ensure n ls =>
    simp only [CInstr.exec] at h
    split at h
    · obtain rfl := Except.ok.inj h; exact ⟨rfl, rfl⟩
    · exact exec_ns_root h
  | declare n ls d =>
    simp only [CInstr.exec] at h
    split at h
    · exact updateNode_meta h
    · exact exec_ns_root h

theorem cexecs_ns_root (s : List CInstr) : ∀ {g g' : DG}, cexecs g s = .ok g' → g'.ns = g.ns ∧ g'.root = g.root := by
  induction s with
  | nil => intro g g' h; obtain rfl := Except.ok.inj h; exact ⟨rfl, rfl⟩
  | cons i s ih =>
    intro g g' h
    rw [cexecs_cons] at h
    cases h1 : i.exec g with
    | error e => rw [h1] at h; simp [bind, Except.bind] at h
    | ok g1 =>
      rw [h1] at h
      have a := cexec_ns_root h1
      have b := ih (show cexecs g1 s = .ok g' from h)
      exact ⟨b.1.trans a.1, b.2.trans a.2⟩

theorem cexecs_nil (g : DG) : cexecs g [] = .ok g := rfl

theorem cexecs_one (g : DG) (c : CInstr) : cexecs g [c] = c.exec g := by
  rw [cexecs_cons]
  cases c.exec g <;> rfl

/-- a loop whose body makes the calls `sc x` in every graph with this namespace -/
theorem foldlM_ccalls {α : Type} {p : String} {r : NodeId} (f : DG → α → Except PyErr DG) (sc : α → List CInstr) (xs : List α) (hf : ∀ g, ∀ x ∈ xs, g.ns = p → g.root = r → f g x = cexecs g (sc x)) :
    ∀ g : DG, g.ns = p → g.root = r → xs.foldlM f g = cexecs g (xs.flatMap sc) := by
  induction xs with
  | nil => intro g _ _; rfl
  | cons x xs ih =>
    intro g hg hr
    rw [List.foldlM_cons, List.flatMap_cons, cexecs_append, hf g x (by simp) hg hr]
    cases h : cexecs g (sc x) with
    | error e => rfl
    | ok g' =>
      have m := cexecs_ns_root _ h
      exact ih (fun g y hy => hf g y (List.mem_cons_of_mem _ hy)) g' (m.1.trans hg) (m.2.trans hr)

theorem tigerTarget_eq {g : DG} {p : String} (h : g.ns = p) (n : NodeId) : g.tigerTarget n = (CInstr.ensure n [p, qual p "secedge"]).exec g := by
  unfold tigerTarget CInstr.exec
  subst h
  rfl

theorem tigerTermSec_eq {p : String} {t : TigerT} {g : DG} {e : XAttrs} (hg : g.ns = p) (he : XmlOk ["idref"] e) :
    tigerTermSec t.node g e = cexecs g (link p ⟨t.node, refNode e, [p, qual p "secedge"], xmlAttrs p e ++ [("edge_type", strV "points_to")]⟩) := by
  unfold tigerTermSec
  rw [xmlAttr_ok (he.2 _ (by simp))]
  show (g.tigerTarget (refNode e) >>= _) = _
  unfold link
  rw [cexecs_cons, tigerTarget_eq hg]
  cases h : (CInstr.ensure (refNode e) [p, qual p "secedge"]).exec g with
  | error _ => rfl
  | ok g1 =>
    have m := cexec_ns_root h
    show g1.addEdge t.node (refNode e) (.set [.str g1.ns, .str (qual g1.ns "secedge")]) none (.dict (tigerFeats g.ns e)) [("edge_type", .atom (.str "points_to"))] = cexecs g1 _
    rw [cexecs_one, m.1, hg, tigerFeats_eq he.1]
    exact addEdge_append g1 t.node (refNode e) [p, qual p "secedge"] (by simp [keys]) (by simp only [keys, List.map_cons, List.map_nil, List.mem_singleton]; rintro k rfl; exact xmlAttrs_plain (by decide))
      (xmlAttrs_plain (by decide)) (by simp [keys])

theorem tigerTerm_eq {p : String} {t : TigerT} {g : DG} (hg : g.ns = p) (ht : XmlOk ["id", "word"] t.attrs) (hs : ∀ e ∈ t.secs, XmlOk ["idref"] e) : tigerTerm g t = cexecs g (termCalls p t) := by
  unfold tigerTerm
  rw [xmlAttr_ok (ht.2 _ (by simp)), hg, tigerFeats_eq ht.1]
  show (featAt (xmlAttrs p t.attrs) (qual p "word") >>= _) = _
  rw [featAt_ok (ht.2 _ (by simp))]
  show (g.addNode t.node (.set [.str p, .str (qual p "token")]) (.dict (put (xmlAttrs p t.attrs) (qual p "token") (strV (xval t.attrs "word")))) [("label", strV (xval t.attrs "word"))] >>= _) = _
  have hk : ∀ k, ':' ∉ k.toList → k ∉ keys (put (xmlAttrs p t.attrs) (qual p "token") (strV (xval t.attrs "word"))) := by
    intro k hk hm
    rw [keys_put] at hm
    split at hm
    · exact xmlAttrs_plain hk hm
    · rcases List.mem_append.1 hm with hm | hm
      · exact xmlAttrs_plain hk hm
      · exact qual_ne_plain hk (List.mem_singleton.1 hm).symm
  have e1 : g.addNode t.node (.set [.str p, .str (qual p "token")]) (.dict (put (xmlAttrs p t.attrs) (qual p "token") (strV (xval t.attrs "word")))) [("label", strV (xval t.attrs "word"))] =
      (CInstr.plain (.node t.node [p, qual p "token"] (termAttrs p t))).exec g :=
    addNode_append g t.node [p, qual p "token"] (by simp [keys]) (by simp only [keys, List.map_cons, List.map_nil, List.mem_singleton]; rintro k rfl; exact hk _ (by decide)) (hk _ (by decide)) (by simp [keys])
  rw [e1]
  unfold termCalls
  rw [cexecs_cons]
  cases h : (CInstr.plain (.node t.node [p, qual p "token"] (termAttrs p t))).exec g with
  | error _ => rfl
  | ok g1 =>
    have m := cexec_ns_root h
    show t.secs.foldlM (tigerTermSec t.node) g1 = cexecs g1 _
    unfold termEdges
    rw [List.flatMap_map]
    refine foldlM_ccalls (p := p) (r := g1.root) _ _ _ ?_ g1 (m.1.trans hg) rfl
    intro g2 e he hg2 _
    exact tigerTermSec_eq hg2 (hs e he)

/-- the state of the reader while it reads the nonterminals -/
structure TokState (p : String) (toks : List NodeId) (g : DG) : Prop where
  inv : Inv g
  layered : NodesLayered False g
  ns : g.ns = p
  tok : ∀ n, g.NodeLayer n (.str (qual p "token")) ↔ n ∈ toks

theorem token_ne_ns (p : String) (k : String) : p ≠ qual p k := by
  intro h
  have := congrArg (fun s : String => s.toList.length) h
  simp [qual, String.toList_append] at this

theorem TokState.step {p : String} {toks : List NodeId} {g : DG} (h : TokState p toks g) {c : CInstr} (hok : c.Ok (keys g.nodes)) (hc : ∀ m, ¬ c.GivesLayer m (.str (qual p "token")))
    (hc2 : ∀ m, ¬ c.MayGive m (.str (qual p "token"))) : ∃ g', c.exec g = .ok g' ∧ TokState p toks g' := by
  obtain ⟨g', e, _, b⟩ := cexecs_built [c] h.inv h.layered (fun m => Iff.rfl) ⟨hok, trivial⟩
  rw [cexecs_one] at e
  refine ⟨g', e, b.inv, b.layered, b.ns.trans h.ns, fun n => ?_⟩
  rw [b.layer, h.tok, givesLayer_compile]
  constructor
  · rintro (h1 | (⟨c', hc', h1⟩ | ⟨_, h1⟩) | ⟨_, _, h1⟩)
    · exact h1
    · obtain rfl := List.mem_singleton.1 hc'
      exact (hc n h1).elim
    · simp only [FirstGives, and_false, or_false] at h1
      exact (hc2 n h1).elim
    · rw [h.ns] at h1
      exact (token_ne_ns p "token" (Atom.str.inj h1).symm).elim
  · exact .inl

theorem TokState.link {p : String} {toks : List NodeId} {g : DG} (h : TokState p toks g) (e : EdgeSpec) (h1 : e.layers ≠ []) (h2 : (keys e.attrs).Nodup) : ∃ g1 g2, (CInstr.ensure e.target [p, qual p "secedge"]).exec g = .ok g1 ∧
    TokState p toks g1 ∧ g1.HasNode e.target ∧ (Instr.edge e.source e.target e.layers e.attrs).exec g1 = .ok g2 ∧ TokState p toks g2 ∧ cexecs g (link p e) = .ok g2 := by
  obtain ⟨g1, e1, t1⟩ := h.step (c := .ensure e.target [p, qual p "secedge"]) (by simp [CInstr.Ok]) (fun m hm => hm) (by
    rintro m ⟨_, hm⟩
    simp only [List.map_cons, List.map_nil, List.mem_cons, Atom.str.injEq, List.not_mem_nil, or_false] at hm
    rcases hm with hm | hm
    · exact token_ne_ns p "token" hm.symm
    · exact absurd (qual_inj hm) (by decide))
  obtain ⟨g2, e2, t2⟩ := t1.step (c := .plain (.edge e.source e.target e.layers e.attrs)) ⟨h1, h2⟩ (fun m hm => hm) (fun m hm => hm)
  refine ⟨g1, g2, e1, t1, ?_, e2, t2, ?_⟩
  · simp only [CInstr.exec] at e1
    split at e1
    · rename_i hh
      obtain rfl := Except.ok.inj e1
      exact (has_iff _ _).1 hh
    · obtain ⟨g', e', b⟩ := exec_built h.inv h.layered (.node e.target [p, qual p "secedge"] []) ⟨by simp, by simp [keys]⟩
      rw [e'] at e1
      obtain rfl := Except.ok.inj e1
      rw [b.nodes]
      exact .inr ⟨.node e.target [p, qual p "secedge"] [], by simp, rfl⟩
  · unfold DG.link
    rw [cexecs_cons, e1]
    show cexecs g1 _ = _
    rw [cexecs_one]
    exact e2

theorem hasTokenLayer_ok {p : String} {toks : List NodeId} {g : DG} (h : TokState p toks g) {n : NodeId} (hn : g.HasNode n) : g.hasTokenLayer n = .ok (decide (n ∈ toks)) := by
  obtain ⟨a, ha⟩ := (hasNode_some _ _).1 hn
  obtain ⟨xs, hx, _⟩ := h.layered n a ha
  unfold hasTokenLayer
  have : g.getAttr n "layers" = .ok (.set xs) := by
    rw [getAttr_ok]
    unfold nodeAttr
    rw [ha]; exact hx
  rw [this]
  show Except.ok _ = Except.ok _
  congr 1
  rw [h.ns]
  have := h.tok n
  unfold NodeLayer AttrsLayer at this
  rw [decide_eq_decide, ← this]
  constructor
  · intro hm; exact ⟨a, ha, xs, hx, hm⟩
  · rintro ⟨b, hb, ys, hy, hm⟩
    rw [ha] at hb
    obtain rfl := Option.some.inj hb
    rw [hx] at hy
    obtain rfl := Val.set.inj (Option.some.inj hy)
    exact hm

/-- the edge of an `<edge>` element -/
def edgeOf (p : String) (toks : List NodeId) (u : NodeId) (e : XAttrs) : EdgeSpec :=
  ⟨u, refNode e, [p, qual p "edge"], xmlAttrs p e ++ [("label", strV (xval e "label")), ("edge_type", strV (if refNode e ∈ toks then "spans" else "dominates"))]⟩

/-- the edge of a `<secedge>` element of a nonterminal -/
def secEdgeOf (p : String) (u : NodeId) (l : String) (e : XAttrs) : EdgeSpec :=
  ⟨u, refNode e, [p, qual p "secedge"], xmlAttrs p e ++ [("label", strV l), ("edge_type", strV "points_to")]⟩

theorem keys_label_type {p : String} {e : XAttrs} (he : (keys e).Nodup) (a b : Val) : (keys (xmlAttrs p e ++ [("label", a), ("edge_type", b)])).Nodup := by
  have : keys (xmlAttrs p e ++ [("label", a), ("edge_type", b)]) = keys (xmlAttrs p e) ++ ["label", "edge_type"] := by simp [keys]
  rw [this, List.nodup_append]
  refine ⟨xmlAttrs_nodup he, by decide, ?_⟩
  intro x hx y hy
  simp only [List.mem_cons, List.not_mem_nil, or_false] at hy
  rcases hy with rfl | rfl
  · rintro rfl; exact xmlAttrs_plain (by decide) hx
  · rintro rfl; exact xmlAttrs_plain (by decide) hx

theorem tigerEdge_eq {p : String} {toks : List NodeId} {g : DG} {last : Option Attrs} (h : TokState p toks g) (u : NodeId) {e : XAttrs} (he : XmlOk ["idref", "label"] e) :
    ∃ g', cexecs g (link p (edgeOf p toks u e)) = .ok g' ∧ TokState p toks g' ∧ tigerEdge u (g, last) e = .ok (g', some (xmlAttrs p e)) := by
  obtain ⟨g1, g2, e1, t1, hn, e2, t2, e3⟩ := h.link (edgeOf p toks u e) (by simp [edgeOf]) (keys_label_type he.1 _ _)
  refine ⟨g2, e3, t2, ?_⟩
  unfold tigerEdge
  rw [xmlAttr_ok (he.2 _ (by simp))]
  show (g.tigerTarget (refNode e) >>= _) = _
  rw [tigerTarget_eq h.ns]
  change ((CInstr.ensure (refNode e) [p, qual p "secedge"]).exec g) = _ at e1
  rw [e1]
  show (g1.hasTokenLayer (refNode e) >>= _) = _
  have hn : g1.HasNode (refNode e) := hn
  rw [hasTokenLayer_ok t1 hn]
  show (featAt (tigerFeats g1.ns e) (qual g1.ns "label") >>= _) = _
  rw [t1.ns, tigerFeats_eq he.1, featAt_ok (he.2 _ (by simp))]
  show (g1.addEdge u (refNode e) (.set [.str p, .str (qual p "edge")]) none (.dict (xmlAttrs p e)) [("label", strV (xval e "label")), ("edge_type", .atom (.str (if decide (refNode e ∈ toks) then "spans" else "dominates")))] >>= _) = _
  have hpl : ∀ k ∈ keys ([("label", strV (xval e "label")), ("edge_type", .atom (.str (if decide (refNode e ∈ toks) then "spans" else "dominates")))] : Attrs), k ∉ keys (xmlAttrs p e) := by
    intro k hk
    simp only [keys, List.map_cons, List.map_nil, List.mem_cons, List.not_mem_nil, or_false] at hk
    rcases hk with rfl | rfl <;> exact xmlAttrs_plain (by decide)
  have := addEdge_append g1 u (refNode e) [p, qual p "edge"] (d := xmlAttrs p e) (at' := [("label", strV (xval e "label")), ("edge_type", .atom (.str (if decide (refNode e ∈ toks) then "spans" else "dominates")))])
    (by simp [keys]) hpl (xmlAttrs_plain (by decide)) (by simp [keys])
  have e4 : (Instr.edge u (refNode e) [p, qual p "edge"] (xmlAttrs p e ++ [("label", strV (xval e "label")), ("edge_type", .atom (.str (if decide (refNode e ∈ toks) then "spans" else "dominates")))])).exec g1 = .ok g2 := by
    rw [← e2]
    unfold edgeOf strV
    simp
  rw [e4] at this
  rw [show (Val.set [Atom.str p, Atom.str (qual p "edge")]) = .set ([p, qual p "edge"].map Atom.str) from rfl, this]
  rfl

theorem tigerEdges_eq {p : String} {toks : List NodeId} (u : NodeId) : ∀ {es : List XAttrs}, (∀ e ∈ es, XmlOk ["idref", "label"] e) → ∀ {g : DG} {last : Option Attrs}, TokState p toks g →
    ∃ g', cexecs g (es.flatMap (fun e => link p (edgeOf p toks u e))) = .ok g' ∧ TokState p toks g' ∧ es.foldlM (tigerEdge u) (g, last) = .ok (g', (es.getLast?.map (xmlAttrs p)).or last) := by
  intro es
  induction es with
  | nil => intro _ g last h; exact ⟨g, rfl, h, by simp; rfl⟩
  | cons e es ih =>
    intro hes g last h
    obtain ⟨g1, c1, t1, e1⟩ := tigerEdge_eq (last := last) h u (hes e (by simp))
    obtain ⟨g2, c2, t2, e2⟩ := ih (fun x hx => hes x (List.mem_cons_of_mem _ hx)) (last := some (xmlAttrs p e)) t1
    refine ⟨g2, ?_, t2, ?_⟩
    · rw [List.flatMap_cons, cexecs_append, c1]; exact c2
    · rw [List.foldlM_cons, e1]
      refine Eq.trans e2 ?_
      congr 2
      rw [List.getLast?_cons]
      cases es.getLast? <;> rfl

theorem tigerNtSec_eq {p : String} {toks : List NodeId} {g : DG} {last : XAttrs} (h : TokState p toks g) (u : NodeId) {e : XAttrs} (he : XmlOk ["idref"] e) (hl : "label" ∈ keys last) :
    ∃ g', cexecs g (link p (secEdgeOf p u (xval last "label") e)) = .ok g' ∧ TokState p toks g' ∧ tigerNtSec u (some (xmlAttrs p last)) g e = .ok g' := by
  obtain ⟨g1, g2, e1, t1, hn, e2, t2, e3⟩ := h.link (secEdgeOf p u (xval last "label") e) (by simp [secEdgeOf]) (keys_label_type he.1 _ _)
  refine ⟨g2, e3, t2, ?_⟩
  unfold tigerNtSec
  rw [xmlAttr_ok (he.2 _ (by simp))]
  show (g.tigerTarget (refNode e) >>= _) = _
  rw [tigerTarget_eq h.ns]
  change ((CInstr.ensure (refNode e) [p, qual p "secedge"]).exec g) = _ at e1
  rw [e1]
  show (featAt (xmlAttrs p last) (qual g1.ns "label") >>= _) = _
  rw [t1.ns, featAt_ok hl]
  show g1.addEdge u (refNode e) (.set ([p, qual p "secedge"].map Atom.str)) none (.dict (tigerFeats p e)) [("label", strV (xval last "label")), ("edge_type", strV "points_to")] = _
  rw [tigerFeats_eq he.1, ← e2]
  refine addEdge_append g1 u (refNode e) [p, qual p "secedge"] (by simp [keys]) ?_ (xmlAttrs_plain (by decide)) (by simp [keys])
  intro k hk
  simp only [keys, List.map_cons, List.map_nil, List.mem_cons, List.not_mem_nil, or_false] at hk
  rcases hk with rfl | rfl <;> exact xmlAttrs_plain (by decide)

theorem tigerNtSecs_eq {p : String} {toks : List NodeId} (u : NodeId) {last : XAttrs} (hl : "label" ∈ keys last) : ∀ {es : List XAttrs}, (∀ e ∈ es, XmlOk ["idref"] e) → ∀ {g : DG}, TokState p toks g →
    ∃ g', cexecs g (es.flatMap (fun e => link p (secEdgeOf p u (xval last "label") e))) = .ok g' ∧ TokState p toks g' ∧ es.foldlM (tigerNtSec u (some (xmlAttrs p last))) g = .ok g' := by
  intro es
  induction es with
  | nil => intro _ g h; exact ⟨g, rfl, h, rfl⟩
  | cons e es ih =>
    intro hes g h
    obtain ⟨g1, c1, t1, e1⟩ := tigerNtSec_eq h u (hes e (by simp)) hl
    obtain ⟨g2, c2, t2, e2⟩ := ih (fun x hx => hes x (List.mem_cons_of_mem _ hx)) t1
    refine ⟨g2, ?_, t2, ?_⟩
    · rw [List.flatMap_cons, cexecs_append, c1]; exact c2
    · rw [List.foldlM_cons, e1]; exact e2

theorem ntAttrs_ok {p : String} {t : TigerNt} (ht : (keys t.attrs).Nodup) : (keys (ntAttrs p t)).Nodup ∧ "layers" ∉ keys (ntAttrs p t) := by
  have : keys (ntAttrs p t) = keys (xmlAttrs p t.attrs) ++ ["label"] := by simp [keys, ntAttrs]
  rw [this]
  constructor
  · rw [List.nodup_append]
    refine ⟨xmlAttrs_nodup ht, by simp, ?_⟩
    intro x hx y hy
    obtain rfl := List.mem_singleton.1 hy
    rintro rfl
    exact xmlAttrs_plain (by decide) hx
  · intro h
    rcases List.mem_append.1 h with h | h
    · exact xmlAttrs_plain (by decide) h
    · exact absurd (List.mem_singleton.1 h) (by decide)

/-- the variable `edge_attribs` after these nonterminals -/
def lastAttribs (p : String) (nts : List TigerNt) : Option Attrs := ((nts.flatMap TigerNt.edges).getLast?).map (xmlAttrs p)

theorem tigerNt_eq {p : String} {toks : List NodeId} {g : DG} (h : TokState p toks g) {before : List TigerNt} {t : TigerNt} (ht : XmlOk ["id", "cat"] t.attrs)
    (he : ∀ x ∈ before ++ [t], ∀ e ∈ x.edges, XmlOk ["idref", "label"] e) (hs : ∀ e ∈ t.secs, XmlOk ["idref"] e) (hl : t.secs ≠ [] → (before ++ [t]).flatMap TigerNt.edges ≠ []) :
    ∃ g', cexecs g (ntCalls p toks before t) = .ok g' ∧ TokState p toks g' ∧ tigerNt (g, lastAttribs p before) t = .ok (g', lastAttribs p (before ++ [t])) := by
  obtain ⟨nd, nl⟩ := ntAttrs_ok (p := p) ht.1
  obtain ⟨g1, e1, t1⟩ := h.step (c := .declare t.node [p, qual p "syntax"] (ntAttrs p t)) ⟨by simp, nd, nl⟩ (fun m hm => hm) (by
    rintro m ⟨_, hm⟩
    simp only [List.map_cons, List.map_nil, List.mem_cons, Atom.str.injEq, List.not_mem_nil, or_false] at hm
    rcases hm with hm | hm
    · exact token_ne_ns p "token" hm.symm
    · exact absurd (qual_inj hm) (by decide))
  obtain ⟨g2, c2, t2, e2⟩ := tigerEdges_eq t.node (he t (by simp)) (last := lastAttribs p before) t1
  have hlast : (t.edges.getLast?.map (xmlAttrs p)).or (lastAttribs p before) = lastAttribs p (before ++ [t]) := by
    unfold lastAttribs
    rw [List.flatMap_append, List.flatMap_singleton, List.getLast?_append]
    cases t.edges.getLast? <;> rfl
  rw [hlast] at e2
  have h3 : ∃ g3, cexecs g2 (t.secs.flatMap (fun e => DG.link p (secEdgeOf p t.node (lastEdgeLabel (before ++ [t])) e))) = .ok g3 ∧ TokState p toks g3 ∧ t.secs.foldlM (tigerNtSec t.node (lastAttribs p (before ++ [t]))) g2 = .ok g3 := by
    by_cases h0 : t.secs = []
    · rw [h0]; exact ⟨g2, rfl, t2, rfl⟩
    · obtain ⟨x, hx⟩ : ∃ x, ((before ++ [t]).flatMap TigerNt.edges).getLast? = some x := by
        cases hh : ((before ++ [t]).flatMap TigerNt.edges).getLast? with
        | none => exact absurd (List.getLast?_eq_none_iff.1 hh) (hl h0)
        | some x => exact ⟨x, rfl⟩
      have hmem := List.mem_of_getLast? hx
      obtain ⟨y, hy1, hy2⟩ := List.mem_flatMap.1 hmem
      have hlab : "label" ∈ keys x := (he y hy1 x hy2).2 _ (by simp)
      have e4 : lastEdgeLabel (before ++ [t]) = xval x "label" := by unfold lastEdgeLabel; rw [hx]
      have e5 : lastAttribs p (before ++ [t]) = some (xmlAttrs p x) := by unfold lastAttribs; rw [hx]; rfl
      rw [e4, e5]
      exact tigerNtSecs_eq t.node hlab hs t2
  obtain ⟨g3, c3, t3, e3⟩ := h3
  refine ⟨g3, ?_, t3, ?_⟩
  · unfold ntCalls ntEdges
    rw [cexecs_cons, e1]
    show cexecs g1 _ = _
    rw [List.flatMap_append, cexecs_append, List.flatMap_map, List.flatMap_map]
    change (cexecs g1 (t.edges.flatMap (fun e => DG.link p (edgeOf p toks t.node e))) >>= fun g' => cexecs g' (t.secs.flatMap (fun e => DG.link p (secEdgeOf p t.node (lastEdgeLabel (before ++ [t])) e)))) = _
    rw [c2]
    exact c3
  · unfold tigerNt
    rw [xmlAttr_ok (ht.2 _ (by simp))]
    show (featAt (tigerFeats g.ns t.attrs) (qual g.ns "cat") >>= _) = _
    rw [h.ns, tigerFeats_eq ht.1, featAt_ok (ht.2 _ (by simp))]
    show (g.tigerNtNode t.node (put (xmlAttrs p t.attrs) "label" (strV (xval t.attrs "cat"))) >>= _) = _
    have e6 : g.tigerNtNode t.node (put (xmlAttrs p t.attrs) "label" (strV (xval t.attrs "cat"))) = .ok g1 := by
      rw [put_of_not_mem _ _ _ (xmlAttrs_plain (by decide)), ← e1]
      unfold tigerNtNode
      simp only [CInstr.exec]
      rw [h.ns]
      split
      · rfl
      · exact addNode_dict g t.node [p, qual p "syntax"] _
    rw [e6]
    show (t.edges.foldlM (tigerEdge t.node) (g1, lastAttribs p before) >>= _) = _
    rw [e2]
    show (t.secs.foldlM (tigerNtSec t.node (lastAttribs p (before ++ [t]))) g2 >>= _) = _
    rw [e3]
    rfl

theorem tigerNts_eq {p : String} {toks : List NodeId} : ∀ {ts before : List TigerNt}, (∀ t ∈ before ++ ts, XmlOk ["id", "cat"] t.attrs ∧ (∀ e ∈ t.edges, XmlOk ["idref", "label"] e) ∧ ∀ e ∈ t.secs, XmlOk ["idref"] e) →
    (∀ pre t post, before ++ ts = pre ++ t :: post → t.secs ≠ [] → (pre ++ [t]).flatMap TigerNt.edges ≠ []) → ∀ {g : DG}, TokState p toks g →
    ∃ g', cexecs g (ntsCalls p toks before ts) = .ok g' ∧ TokState p toks g' ∧ ts.foldlM tigerNt (g, lastAttribs p before) = .ok (g', lastAttribs p (before ++ ts)) := by
  intro ts
  induction ts with
  | nil => intro before _ _ g h; exact ⟨g, rfl, h, by rw [List.append_nil]; rfl⟩
  | cons t ts ih =>
    intro before hok hl g h
    obtain ⟨g1, c1, t1, e1⟩ := tigerNt_eq h (before := before) (t := t) (hok t (by simp)).1 (fun x hx => (hok x (by simp at hx ⊢; tauto)).2.1) (hok t (by simp)).2.2 (hl before t ts rfl)
    obtain ⟨g2, c2, t2, e2⟩ := ih (before := before ++ [t]) (by simpa using hok) (by intro pre x post hx; exact hl pre x post (by simpa using hx)) t1
    refine ⟨g2, ?_, t2, ?_⟩
    · unfold ntsCalls
      rw [cexecs_append, c1]; exact c2
    · rw [List.foldlM_cons, e1]
      refine Eq.trans e2 ?_
      simp

end DG
end Dg
