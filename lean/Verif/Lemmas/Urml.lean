import Verif.Spec.Urml
import Verif.Lemmas.Dag
import Verif.Lemmas.Tiger
import Verif.Lemmas.TigerRepair
import Verif.Lemmas.GraphStep
import Verif.Lemmas.DisRead
import Verif.Props.C57
import Verif.Props.C59

/-! Reading a URML document. -/

namespace Dg
open Dict
namespace DG

/-! ### scripts and views -/

/-- the content of a graph after the calls of a script -/
def View.run (w : View) (s : List Instr) : View where
  ns := w.ns
  root := w.root
  tokens := w.tokens ++ s.flatMap Instr.newTokens
  sentences := w.sentences ++ s.flatMap Instr.newSentences
  has m := w.has m ∨ ∃ i ∈ s, i.Mentions m
  attr m k := (lastWrite m k s).or (w.attr m k)
  layer m l := w.layer m l ∨ (∃ i ∈ s, i.GivesLayer m l) ∨ (¬ w.has m ∧ Implicit m s ∧ l = .str w.ns)
  edges := w.edges ++ s.filterMap Instr.spec

theorem Sees.built {g g' : DG} {w : View} {s : List Instr} (h : Sees g w) (b : Built g s g') : Sees g' (w.run s) := by
  refine ⟨b.inv, b.layered, b.ns.trans h.ns, b.root.trans h.root, ?_, ?_, ?_, ?_, ?_, ?_⟩
  · rw [b.tokens, h.tokens]; rfl
  · rw [b.sentences, h.sentences]; rfl
  · intro m
    rw [b.nodes, h.nodes]; rfl
  · intro m k hk
    rw [b.attr m k hk, h.attr m k hk]; rfl
  · intro m l
    rw [b.layer, h.layer, h.nodes, h.ns]; rfl
  · exact h.edges.built b (fun u v ls at' => mem_spec u v ls at') (fun u v => count_spec s u v)

/-! ### the calls -/

/-- the calls of `__add_segment` -/
def urmlSegCalls (ns : String) (tokenize : Bool) (doc : UrmlDoc) (s : UrmlSeg) : List Instr :=
  (s.tokens tokenize).flatMap (fun t => [.node (.str (qual ns t.1)) [ns, qual ns "token"] [(qual ns "token", optVal t.2), ("label", optVal t.2)], .token (.str (qual ns t.1)),
    .edge (.str (qual ns s.id)) (.str (qual ns t.1)) [ns, qual ns "token"] [("edge_type", .atom (.str "spans"))]])
  ++ [.node (.str (qual ns s.id)) [ns, qual ns "segment"] [(qual ns "text", strVal (urmlText s)), ("label", .atom (.str (urmlSegmentLabel s.id (urmlSegmentType doc s.id) (urmlText s) ns tokenize)))]]

/-- the calls of `__add_relation` -/
def urmlRelCalls (ns : String) (r : UrmlRel) : List Instr :=
  .node (.str (qual ns r.id)) [ns, qual ns "relation"] [(qual ns "rel_name", strVal r.type), (qual ns "rel_type", .atom (.str (if r.par then "parRelation" else "hypRelation")))] :: edgeCalls (urmlRelEdges ns r)

/-- all calls -/
def urmlCalls (ns : String) (tokenize : Bool) (doc : UrmlDoc) : List Instr :=
  doc.segments.flatMap (urmlSegCalls ns tokenize doc) ++ doc.relations.flatMap (urmlRelCalls ns)

theorem words_strip (s : List Char) : Words isUniSpace s (splitBy isUniSpace (stripUni s)) := by
  obtain ⟨pre, post, e, h1, h2, _, _⟩ := stripUni_stripped s
  have hp : ∀ (pre : List Char) {t : List Char} {ws}, (∀ c ∈ pre, isUniSpace c = true) → Words isUniSpace t ws → Words isUniSpace (pre ++ t) ws := by
    intro pre
    induction pre with
    | nil => intro t ws _ h; exact h
    | cons a as ih => intro t ws ha h; exact .space (ha a (by simp)) (ih (fun c hc => ha c (by simp [hc])) h)
  have hpost : Words isUniSpace post [] := by
    have := hp post h2 Words.nil
    rwa [List.append_nil] at this
  have happ : ∀ {t ws}, Words isUniSpace t ws → Words isUniSpace (t ++ post) ws := by
    intro t ws hw
    induction hw with
    | nil => exact hpost
    | space h _ ih => exact .space h ih
    | @word w s ws hn hw hs _ ih =>
      rw [List.append_assoc]
      refine .word hn hw ?_ ih
      intro c hc
      cases s with
      | nil => exact h2 c (List.mem_of_mem_head? hc)
      | cons a b => exact hs c (by simpa using hc)
  conv => arg 2; rw [e]
  exact (List.append_assoc pre _ post).symm ▸ hp pre h1 (happ (splitBy_words isUniSpace (stripUni s)))

theorem splitWs_strip (t : Option (List Char)) : splitWs (sanitizeString t) = splitWs (t.getD []) := by
  cases t with
  | none => rfl
  | some s =>
    show splitWs (stripUni s) = splitWs s
    rw [splitWs_splitBy, splitWs_splitBy]
    exact (splitBy_of_words (words_strip s)).symm

theorem urmlTokens_eq (tokenize : Bool) (s : UrmlSeg) : urmlTokens tokenize s = s.words tokenize := by
  unfold urmlTokens UrmlSeg.words urmlText
  cases hs : s.signs with
  | nil => simp [splitWs_strip]
  | cons t ts => simp

theorem tokenName_qual (ns : String) (s : UrmlSeg) (i : Nat) : urmlTokenId ns s.id i = .str (qual ns (s.tokenName i)) := by
  unfold urmlTokenId UrmlSeg.tokenName qual
  simp only [String.append_assoc]

theorem urmlAddToken_eq {ns : String} (s : UrmlSeg) (w : Option (List Char) × Nat) (g : DG) (h : g.ns = ns) : urmlAddToken s.id g w = execs g [.node (.str (qual ns (s.tokenName w.2))) [ns, qual ns "token"] [(qual ns "token", optVal w.1), ("label", optVal w.1)], .token (.str (qual ns (s.tokenName w.2))),
    .edge (.str (qual ns s.id)) (.str (qual ns (s.tokenName w.2))) [ns, qual ns "token"] [("edge_type", .atom (.str "spans"))]] := by
  subst h
  unfold urmlAddToken
  rw [execs_cons, tokenName_qual]
  have := addNode_dict g (.str (qual g.ns (s.tokenName w.2))) [g.ns, qual g.ns "token"] [(qual g.ns "token", optVal w.1), ("label", optVal w.1)]
  simp only [List.map_cons, List.map_nil] at this
  dsimp only
  rw [this]
  cases he : (Instr.node (.str (qual g.ns (s.tokenName w.2))) [g.ns, qual g.ns "token"] [(qual g.ns "token", optVal w.1), ("label", optVal w.1)]).exec g with
  | error e => rfl
  | ok g1 =>
    have hn := (exec_ns_root he).1
    simp only [bind, Except.bind]
    rw [execs_cons]
    show _ = execs _ _
    rw [execs_one]
    simp only [hn]
    rfl

theorem urmlAddSegment_eq {ns : String} {r : NodeId} (doc : UrmlDoc) (tokenize : Bool) (s : UrmlSeg) (g : DG) (edus : List NodeId) (h : g.ns = ns) (hr : g.root = r) :
    urmlAddSegment doc tokenize (g, edus) s = (execs g (urmlSegCalls ns tokenize doc s)).map (fun g' => (g', edus ++ [.str (qual ns s.id)])) := by
  unfold urmlAddSegment urmlSegCalls
  rw [execs_append, urmlTokens_eq]
  have hf := foldlM_calls (ns := ns) (r := r) (urmlAddToken s.id) (fun w : Option (List Char) × Nat => [.node (.str (qual ns (s.tokenName w.2))) [ns, qual ns "token"] [(qual ns "token", optVal w.1), ("label", optVal w.1)], .token (.str (qual ns (s.tokenName w.2))),
    .edge (.str (qual ns s.id)) (.str (qual ns (s.tokenName w.2))) [ns, qual ns "token"] [("edge_type", .atom (.str "spans"))]]) (s.words tokenize).zipIdx (fun g x _ h1 _ => urmlAddToken_eq s x g h1) g h hr
  simp only [hf, UrmlSeg.tokens, List.flatMap_map]
  cases he : execs g _ with
  | error e => rfl
  | ok g1 =>
    have hn := (execs_ns_root _ he).1.trans h
    simp only [bind, Except.bind]
    have := addNode_dict g1 (.str (qual ns s.id)) [ns, qual ns "segment"] [(qual ns "text", strVal (urmlText s)), ("label", .atom (.str (urmlSegmentLabel s.id (urmlSegmentType doc s.id) (urmlText s) ns tokenize)))]
    simp only [List.map_cons, List.map_nil] at this
    rw [hn, h, execs_one, urmlId, this]
    cases Instr.exec _ _ <;> rfl

theorem urmlSegments_eq {ns : String} {r : NodeId} (doc : UrmlDoc) (tokenize : Bool) (ss : List UrmlSeg) : ∀ (g : DG) (edus : List NodeId), g.ns = ns → g.root = r →
    ss.foldlM (urmlAddSegment doc tokenize) (g, edus) = (execs g (ss.flatMap (urmlSegCalls ns tokenize doc))).map (fun g' => (g', edus ++ ss.map (fun s => .str (qual ns s.id)))) := by
  induction ss with
  | nil => intro g edus _ _; simp [execs_nil, Except.map, pure, Except.pure]
  | cons s ss ih =>
    intro g edus h hr
    rw [List.foldlM_cons, urmlAddSegment_eq doc tokenize s g edus h hr, List.flatMap_cons, execs_append]
    cases he : execs g (urmlSegCalls ns tokenize doc s) with
    | error e => rfl
    | ok g1 =>
      obtain ⟨h1, h2⟩ := execs_ns_root _ he
      simp only [Except.map, bind, Except.bind]
      rw [ih g1 _ (h1.trans h) (h2.trans hr)]
      simp [Except.map]

theorem urmlRel_edge {ns : String} (r : UrmlRel) (l : String × String) (g : DG) (h : g.ns = ns) :
    g.addEdge (urmlId g.ns l.1) (urmlId g.ns l.2) (.set [.str g.ns]) none (.dict (urmlRelAttrs g.ns r)) [("edge_type", .atom (.str (if r.par then "spans" else "dominates")))] =
      (Instr.edge (.str (qual ns l.1)) (.str (qual ns l.2)) [ns]
    [(qual ns "rel_name", strVal r.type), (qual ns "rel_type", .atom (.str (if r.par then "parRelation" else "hypRelation"))), ("label", .atom (.str (ns ++ ":" ++ String.ofList r.type))),
     ("edge_type", .atom (.str (if r.par then "spans" else "dominates")))]).exec g := by
  subst h
  have := addEdge_append g (.str (qual g.ns l.1)) (.str (qual g.ns l.2)) [g.ns] (d := urmlRelAttrs g.ns r) (at' := [("edge_type", .atom (.str (if r.par then "spans" else "dominates")))]) (by simp [keys]) (by
    intro k hk
    simp only [keys, List.map_cons, List.map_nil, List.mem_singleton] at hk
    subst hk
    have q : ∀ s, qual g.ns s ≠ "edge_type" := fun s => qual_ne_plain (by decide)
    simp [keys, urmlRelAttrs, Ne.symm (q _)]) (by
    have q : ∀ s, qual g.ns s ≠ "layers" := fun s => qual_ne_plain (by decide)
    simp [keys, urmlRelAttrs, Ne.symm (q _)]) (by simp [keys])
  simp only [List.map_cons, List.map_nil] at this
  unfold urmlId
  rw [this]
  unfold urmlRelAttrs urmlTag strVal qual
  cases r.par <;> simp [String.append_assoc]

theorem urmlAddRelation_ok {ns : String} {root : NodeId} (r : UrmlRel) (hr : r.Ok) (g : DG) (h : g.ns = ns) (hroot : g.root = root) : urmlAddRelation g r = execs g (urmlRelCalls ns r) := by
  unfold urmlAddRelation urmlRelCalls
  rw [execs_cons]
  have hn := addNode_dict g (.str (qual ns r.id)) [ns, qual ns "relation"] [(qual ns "rel_name", strVal r.type), (qual ns "rel_type", .atom (.str (if r.par then "parRelation" else "hypRelation")))]
  simp only [List.map_cons, List.map_nil] at hn
  have htag : strVal (urmlTag r) = .atom (.str (if r.par then "parRelation" else "hypRelation")) := by
    unfold urmlTag strVal
    cases r.par <;> rfl
  dsimp only
  rw [h, htag, urmlId, hn]
  cases he : (Instr.node (.str (qual ns r.id)) [ns, qual ns "relation"] [(qual ns "rel_name", strVal r.type), (qual ns "rel_type", .atom (.str (if r.par then "parRelation" else "hypRelation")))]).exec g with
  | error e => rfl
  | ok g1 =>
    have h1 := (exec_ns_root he).1.trans h
    have h2 := (exec_ns_root he).2.trans hroot
    simp only [bind, Except.bind]
    have hcalls : edgeCalls (urmlRelEdges ns r) = r.links.flatMap (fun l => [Instr.edge (.str (qual ns l.1)) (.str (qual ns l.2)) [ns]
    [(qual ns "rel_name", strVal r.type), (qual ns "rel_type", .atom (.str (if r.par then "parRelation" else "hypRelation"))), ("label", .atom (.str (ns ++ ":" ++ String.ofList r.type))),
     ("edge_type", .atom (.str (if r.par then "spans" else "dominates")))]]) := by
      unfold edgeCalls urmlRelEdges
      rw [List.map_map, flatMap_one]
      rfl
    rw [hcalls]
    cases hp : r.par with
    | true =>
      simp only [hp, if_true, UrmlRel.links, List.flatMap_map]
      refine foldlM_calls (ns := ns) (r := root) _ _ r.args ?_ g1 h1 h2
      intro g x _ hg _
      have := urmlRel_edge r (r.id, x.2) g hg
      simp only [hp, if_true] at this
      rw [execs_one]
      exact this
    | false =>
      have hlen : ∃ a b, r.args.length = 2 ∧ urmlArg r .nucleus = some a ∧ urmlArg r .satellite = some b ∧ r.nucleus = a ∧ r.satellite = b := by
        rcases hr with hr | ⟨a, b, hr | hr⟩
        · rw [hp] at hr; cases hr
        · exact ⟨a, b, by rw [hr]; rfl, by unfold urmlArg; rw [hr]; simp, by unfold urmlArg; rw [hr]; simp, by unfold UrmlRel.nucleus; rw [hr]; simp, by unfold UrmlRel.satellite; rw [hr]; simp⟩
        · exact ⟨a, b, by rw [hr]; rfl, by unfold urmlArg; rw [hr]; simp, by unfold urmlArg; rw [hr]; simp, by unfold UrmlRel.nucleus; rw [hr]; simp, by unfold UrmlRel.satellite; rw [hr]; simp⟩
      obtain ⟨a, b, e1, e2, e3, e4, e5⟩ := hlen
      have key : ∀ (g : DG) (l : String × String), g.ns = ns → _ := fun g l hg => urmlRel_edge r l g hg
      simp only [hp, Bool.false_eq_true, if_false] at key
      simp only [Bool.false_eq_true, if_false, e1, if_true, e2, e3, UrmlRel.links, hp, e4, e5, List.flatMap_cons, List.flatMap_nil, List.append_nil, List.singleton_append]
      have k1 := key g1 (r.id, a) h1
      rw [h1] at k1
      rw [h1, execs_cons, ← k1]
      unfold urmlId
      simp only [show dominanceRelation = "dominates" from rfl]
      cases hg2 : g1.addEdge (.str (qual ns r.id)) (.str (qual ns a)) (.set [.str ns]) none (.dict (urmlRelAttrs ns r)) [("edge_type", .atom (.str "dominates"))] with
      | error e => rfl
      | ok g2 =>
        simp only [bind, Except.bind]
        have hx : (Instr.edge (.str (qual ns r.id)) (.str (qual ns a)) [ns] [(qual ns "rel_name", strVal r.type), (qual ns "rel_type", .atom (.str "hypRelation")), ("label", .atom (.str (ns ++ ":" ++ String.ofList r.type))), ("edge_type", .atom (.str "dominates"))]).exec g1 = .ok g2 := by
          rw [← k1]
          exact hg2
        have h3 := (exec_ns_root hx).1.trans h1
        have k2 := key g2 (a, b) h3
        rw [execs_one, ← k2]
        rfl

theorem urmlAddRelation_bad {g : DG} (hi : Inv g) (hl : NodesLayered False g) {r : UrmlRel} (hr : ¬ r.Ok) : urmlAddRelation g r = .error .assertion := by
  unfold urmlAddRelation
  have hn := addNode_dict g (urmlId g.ns r.id) [g.ns, qual g.ns "relation"] [(qual g.ns "rel_name", strVal r.type), (qual g.ns "rel_type", strVal (urmlTag r))]
  simp only [List.map_cons, List.map_nil] at hn
  obtain ⟨g1, e1, _⟩ := built_node hi hl (urmlId g.ns r.id) (ls := [g.ns, qual g.ns "relation"]) (at' := [(qual g.ns "rel_name", strVal r.type), (qual g.ns "rel_type", strVal (urmlTag r))]) (by simp) (by
    have : qual g.ns "rel_name" ≠ qual g.ns "rel_type" := fun h => absurd (qual_inj h) (by decide)
    simpa [keys] using this)
  dsimp only
  rw [hn, e1]
  simp only [bind, Except.bind]
  have hp : r.par = false := by
    cases hp : r.par with
    | false => rfl
    | true => exact (hr (.inl hp)).elim
  rw [hp]
  simp only [Bool.false_eq_true, if_false]
  split
  · rename_i h2
    match ha : r.args, h2 with
    | [(a, x), (b, y)], _ =>
      have hxa : ∀ role, urmlArg r role = (if b = role then some y else if a = role then some x else none) := by
        intro role
        unfold urmlArg
        rw [ha]
        cases a <;> cases b <;> cases role <;> simp
      rw [hxa, hxa]
      cases a <;> cases b
      · rfl
      · exact (hr (.inr ⟨x, y, .inl ha⟩)).elim
      · exact (hr (.inr ⟨y, x, .inr ha⟩)).elim
      · rfl
  · rfl

end DG
end Dg
