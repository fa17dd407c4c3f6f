import Verif.Lemmas.Urml

/-! Reading a URML document: the content of the graph. -/

namespace Dg
open Dict
namespace DG

/-! ### the calls are fine -/

theorem qual_lit {ns a b : String} (h : a ≠ b) : qual ns a ≠ qual ns b := fun e => h (qual_inj e)

theorem urmlSegCalls_ok (ns : String) (tokenize : Bool) (doc : UrmlDoc) (s : UrmlSeg) : ∀ i ∈ urmlSegCalls ns tokenize doc s, i.Ok (fun _ => False) := by
  have q : ∀ a, qual ns a ≠ "label" := fun a => qual_ne_plain (by decide)
  intro i hi
  unfold urmlSegCalls at hi
  rw [List.mem_append, List.mem_flatMap] at hi
  rcases hi with ⟨t, _, hi⟩ | hi
  · simp only [List.mem_cons, List.not_mem_nil, or_false] at hi
    rcases hi with rfl | rfl | rfl
    · exact ⟨by simp, by simp [keys, q]⟩
    · trivial
    · exact ⟨by simp, by simp [keys]⟩
  · rw [List.mem_singleton.1 hi]
    exact ⟨by simp, by simp [keys, q]⟩

theorem urmlRelEdges_keys (ns : String) (r : UrmlRel) : ∀ e ∈ urmlRelEdges ns r, e.layers ≠ [] ∧ (keys e.attrs).Nodup := by
  have q : ∀ a, qual ns a ≠ "label" := fun a => qual_ne_plain (by decide)
  have q' : ∀ a, qual ns a ≠ "edge_type" := fun a => qual_ne_plain (by decide)
  intro e he
  obtain ⟨l, _, rfl⟩ := List.mem_map.1 he
  exact ⟨by simp, by simp [keys, q, q', qual_lit]⟩

theorem urmlRelCalls_ok (ns : String) (r : UrmlRel) : ∀ i ∈ urmlRelCalls ns r, i.Ok (fun _ => False) := by
  intro i hi
  unfold urmlRelCalls at hi
  rw [List.mem_cons] at hi
  rcases hi with rfl | hi
  · exact ⟨by simp, by simp [keys, qual_lit]⟩
  · obtain ⟨e, he, rfl⟩ := List.mem_map.1 hi
    exact urmlRelEdges_keys ns r e he

theorem urmlCalls_ok (ns : String) (tokenize : Bool) (doc : UrmlDoc) : ∀ i ∈ urmlCalls ns tokenize doc, i.Ok (fun _ => False) := by
  intro i hi
  unfold urmlCalls at hi
  rw [List.mem_append, List.mem_flatMap, List.mem_flatMap] at hi
  rcases hi with ⟨s, _, hi⟩ | ⟨r, _, hi⟩
  · exact urmlSegCalls_ok ns tokenize doc s i hi
  · exact urmlRelCalls_ok ns r i hi

/-! ### all relations -/

theorem urmlRelations_ok {ns : String} {root : NodeId} (rs : List UrmlRel) (h : ∀ r ∈ rs, r.Ok) (g : DG) (hn : g.ns = ns) (hr : g.root = root) : rs.foldlM urmlAddRelation g = execs g (rs.flatMap (urmlRelCalls ns)) :=
  foldlM_calls urmlAddRelation (urmlRelCalls ns) rs (fun g r hm h1 h2 => urmlAddRelation_ok r (h r hm) g h1 h2) g hn hr

theorem urmlRelations_bad {ns : String} (rs : List UrmlRel) (h : ∃ r ∈ rs, ¬ r.Ok) : ∀ g : DG, DisState ns g → rs.foldlM urmlAddRelation g = .error .assertion := by
  induction rs with
  | nil => obtain ⟨_, hm, _⟩ := h; cases hm
  | cons r rs ih =>
    intro g hg
    rw [List.foldlM_cons]
    by_cases hr : r.Ok
    · obtain ⟨r', hm, hb⟩ := h
      have hm' : r' ∈ rs := by
        rcases List.mem_cons.1 hm with rfl | hm
        · exact (hb hr).elim
        · exact hm
      rw [urmlAddRelation_ok r hr g hg.ns rfl]
      obtain ⟨g1, e1, s1, _⟩ := execs_state hg (urmlRelCalls_ok ns r)
      rw [e1]
      exact ih ⟨r', hm', hb⟩ g1 s1
    · rw [urmlAddRelation_bad hg.inv hg.layered hr]
      rfl

/-! ### edges and tokens of the calls -/

theorem urmlSegCalls_spec (ns : String) (tokenize : Bool) (doc : UrmlDoc) (s : UrmlSeg) : (urmlSegCalls ns tokenize doc s).filterMap Instr.spec = urmlSegEdges ns tokenize s := by
  unfold urmlSegCalls urmlSegEdges
  rw [List.filterMap_append, flatMap_filterMap]
  simp only [List.filterMap_cons, Instr.spec, List.filterMap_nil, List.append_nil]
  induction s.tokens tokenize with
  | nil => rfl
  | cons t ts ih => rw [List.flatMap_cons, ih]; rfl

theorem urmlCalls_spec (ns : String) (tokenize : Bool) (doc : UrmlDoc) : (urmlCalls ns tokenize doc).filterMap Instr.spec = urmlEdges ns tokenize doc := by
  unfold urmlCalls urmlEdges
  rw [List.filterMap_append, flatMap_filterMap, flatMap_filterMap]
  simp only [urmlSegCalls_spec]
  congr 1
  congr 1
  funext r
  show (edgeCalls _).filterMap Instr.spec = _
  exact edgeCalls_spec _

theorem urmlSegCalls_tokens (ns : String) (tokenize : Bool) (doc : UrmlDoc) (s : UrmlSeg) : (urmlSegCalls ns tokenize doc s).flatMap Instr.newTokens = (s.tokens tokenize).map (fun t => .str (qual ns t.1)) := by
  unfold urmlSegCalls
  rw [List.flatMap_append, List.flatMap_assoc]
  simp only [List.flatMap_cons, Instr.newTokens, List.flatMap_nil, List.append_nil, List.nil_append]
  induction s.tokens tokenize with
  | nil => rfl
  | cons t ts ih => rw [List.flatMap_cons, ih]; rfl

theorem urmlCalls_tokens (ns : String) (tokenize : Bool) (doc : UrmlDoc) : (urmlCalls ns tokenize doc).flatMap Instr.newTokens = (doc.tokens tokenize).map (fun t => .str (qual ns t.1)) := by
  unfold urmlCalls UrmlDoc.tokens
  rw [List.flatMap_append, List.flatMap_assoc, List.flatMap_assoc, List.map_flatMap]
  simp only [urmlSegCalls_tokens]
  have : ∀ r, (urmlRelCalls ns r).flatMap Instr.newTokens = [] := by
    intro r
    show (edgeCalls _).flatMap Instr.newTokens = _
    exact edgeCalls_tokens _
  simp [this]

theorem urmlCalls_sentences (ns : String) (tokenize : Bool) (doc : UrmlDoc) : (urmlCalls ns tokenize doc).flatMap Instr.newSentences = [] := by
  rw [List.flatMap_eq_nil_iff]
  intro i hi
  unfold urmlCalls at hi
  rw [List.mem_append, List.mem_flatMap, List.mem_flatMap] at hi
  rcases hi with ⟨s, _, hi⟩ | ⟨r, _, hi⟩
  · unfold urmlSegCalls at hi
    rw [List.mem_append, List.mem_flatMap] at hi
    rcases hi with ⟨t, _, hi⟩ | hi
    · simp only [List.mem_cons, List.not_mem_nil, or_false] at hi
      rcases hi with rfl | rfl | rfl <;> rfl
    · rw [List.mem_singleton.1 hi]; rfl
  · unfold urmlRelCalls at hi
    rw [List.mem_cons] at hi
    rcases hi with rfl | hi
    · rfl
    · obtain ⟨e, he, rfl⟩ := List.mem_map.1 hi
      rfl

theorem urmlEdges_links (ns : String) (tokenize : Bool) (doc : UrmlDoc) : (urmlEdges ns tokenize doc).map (fun e => (e.source, e.target)) = (doc.links tokenize).map (fun l => (.str (qual ns l.1), .str (qual ns l.2))) := by
  unfold urmlEdges UrmlDoc.links urmlSegEdges urmlRelEdges
  simp [List.map_flatMap, List.map_map, Function.comp_def]

/-! ### nodes of the calls -/

/-- the IDs of all nodes -/
def _root_.Dg.UrmlDoc.Named (tokenize : Bool) (doc : UrmlDoc) (a : String) : Prop := a ∈ doc.ids ∨ a ∈ doc.argIds ∨ a ∈ (doc.tokens tokenize).map Prod.fst

theorem rel_links_named {r : UrmlRel} (hr : r.Ok) {l : String × String} (hl : l ∈ r.links) : (l.1 = r.id ∨ l.1 ∈ r.args.map Prod.snd) ∧ l.2 ∈ r.args.map Prod.snd := by
  unfold UrmlRel.links at hl
  split at hl
  · obtain ⟨a, ha, rfl⟩ := List.mem_map.1 hl
    exact ⟨.inl rfl, List.mem_map.2 ⟨a, ha, rfl⟩⟩
  · rename_i hp
    rcases hr with hr | ⟨a, b, hr | hr⟩
    · exact (hp hr).elim
    · simp only [List.mem_cons, List.not_mem_nil, or_false] at hl
      unfold UrmlRel.nucleus UrmlRel.satellite at hl
      rw [hr] at hl ⊢
      rcases hl with rfl | rfl <;> simp
    · simp only [List.mem_cons, List.not_mem_nil, or_false] at hl
      unfold UrmlRel.nucleus UrmlRel.satellite at hl
      rw [hr] at hl ⊢
      rcases hl with rfl | rfl <;> simp

theorem rel_args_link {r : UrmlRel} (hr : r.Ok) {a : String} (ha : a ∈ r.args.map Prod.snd) : ∃ l ∈ r.links, l.2 = a := by
  unfold UrmlRel.links
  split
  · obtain ⟨x, hx, rfl⟩ := List.mem_map.1 ha
    exact ⟨_, List.mem_map.2 ⟨x, hx, rfl⟩, rfl⟩
  · rename_i hp
    rcases hr with hr | ⟨x, y, hr | hr⟩
    · exact (hp hr).elim
    · unfold UrmlRel.nucleus UrmlRel.satellite
      rw [hr] at ha ⊢
      simp only [List.map_cons, List.map_nil, List.mem_cons, List.not_mem_nil, or_false] at ha
      rcases ha with rfl | rfl <;> simp
    · unfold UrmlRel.nucleus UrmlRel.satellite
      rw [hr] at ha ⊢
      simp only [List.map_cons, List.map_nil, List.mem_cons, List.not_mem_nil, or_false] at ha
      rcases ha with rfl | rfl <;> simp

theorem urmlCalls_mentions (ns : String) (tokenize : Bool) (doc : UrmlDoc) (hr : ∀ r ∈ doc.relations, r.Ok) (m : NodeId) : (∃ i ∈ urmlCalls ns tokenize doc, i.Mentions m) ↔ ∃ a, doc.Named tokenize a ∧ m = .str (qual ns a) := by
  constructor
  · rintro ⟨i, hi, hm⟩
    unfold urmlCalls at hi
    rw [List.mem_append, List.mem_flatMap, List.mem_flatMap] at hi
    rcases hi with ⟨s, hs, hi⟩ | ⟨r, hrm, hi⟩
    · have hsid : s.id ∈ doc.ids := List.mem_append_left _ (List.mem_map.2 ⟨s, hs, rfl⟩)
      unfold urmlSegCalls at hi
      rw [List.mem_append, List.mem_flatMap] at hi
      rcases hi with ⟨t, ht, hi⟩ | hi
      · have htm : t.1 ∈ (doc.tokens tokenize).map Prod.fst := List.mem_map.2 ⟨t, List.mem_flatMap.2 ⟨s, hs, ht⟩, rfl⟩
        simp only [List.mem_cons, List.not_mem_nil, or_false] at hi
        rcases hi with rfl | rfl | rfl
        · exact ⟨_, .inr (.inr htm), hm⟩
        · exact hm.elim
        · rcases hm with hm | hm
          · exact ⟨_, .inl hsid, hm⟩
          · exact ⟨_, .inr (.inr htm), hm⟩
      · rw [List.mem_singleton.1 hi] at hm
        exact ⟨_, .inl hsid, hm⟩
    · have hrid : r.id ∈ doc.ids := List.mem_append_right _ (List.mem_map.2 ⟨r, hrm, rfl⟩)
      unfold urmlRelCalls at hi
      rw [List.mem_cons] at hi
      rcases hi with rfl | hi
      · exact ⟨_, .inl hrid, hm⟩
      · obtain ⟨e, he, rfl⟩ := List.mem_map.1 hi
        obtain ⟨l, hl, rfl⟩ := List.mem_map.1 he
        obtain ⟨h1, h2⟩ := rel_links_named (hr r hrm) hl
        rcases hm with hm | hm
        · rcases h1 with h1 | h1
          · exact ⟨_, .inl hrid, h1 ▸ hm⟩
          · exact ⟨_, .inr (.inl (List.mem_flatMap.2 ⟨r, hrm, h1⟩)), hm⟩
        · exact ⟨_, .inr (.inl (List.mem_flatMap.2 ⟨r, hrm, h2⟩)), hm⟩
  · rintro ⟨a, ha, rfl⟩
    unfold urmlCalls
    rcases ha with ha | ha | ha
    · rcases List.mem_append.1 ha with ha | ha
      · obtain ⟨s, hs, rfl⟩ := List.mem_map.1 ha
        exact ⟨_, List.mem_append_left _ (List.mem_flatMap.2 ⟨s, hs, List.mem_append_right _ (.head _)⟩), rfl⟩
      · obtain ⟨r, hs, rfl⟩ := List.mem_map.1 ha
        exact ⟨_, List.mem_append_right _ (List.mem_flatMap.2 ⟨r, hs, .head _⟩), rfl⟩
    · obtain ⟨r, hrm, ha⟩ := List.mem_flatMap.1 ha
      obtain ⟨l, hl, rfl⟩ := rel_args_link (hr r hrm) ha
      exact ⟨_, List.mem_append_right _ (List.mem_flatMap.2 ⟨r, hrm, .tail _ (List.mem_map.2 ⟨_, List.mem_map.2 ⟨l, hl, rfl⟩, rfl⟩)⟩), .inr rfl⟩
    · obtain ⟨t, ht, rfl⟩ := List.mem_map.1 ha
      obtain ⟨s, hs, ht⟩ := List.mem_flatMap.1 ht
      exact ⟨_, List.mem_append_left _ (List.mem_flatMap.2 ⟨s, hs, List.mem_append_left _ (List.mem_flatMap.2 ⟨t, ht, .head _⟩)⟩), rfl⟩

theorem token_ne_root {tokenize : Bool} {doc : UrmlDoc} : "root_node" ∉ (doc.tokens tokenize).map Prod.fst := by
  intro h
  obtain ⟨t, ht, h⟩ := List.mem_map.1 h
  obtain ⟨s, _, ht⟩ := List.mem_flatMap.1 ht
  obtain ⟨w, _, rfl⟩ := List.mem_map.1 ht
  have := congrArg String.toList h
  simp only [UrmlSeg.tokenName, String.toList_append, String.toList_ofList] at this
  have h2 := congrArg List.getLast? this
  rw [List.getLast?_append, List.getLast?_append] at h2
  have hne := decimal_ne_nil w.2
  obtain ⟨c, hc⟩ : ∃ c, (decimal w.2).getLast? = some c := by
    cases hx : (decimal w.2).getLast? with
    | none => exact (hne (List.getLast?_eq_none_iff.1 hx)).elim
    | some c => exact ⟨c, rfl⟩
  rw [hc] at h2
  have : c = 'e' := by simpa using h2
  exact absurd (decimal_digits w.2 c (List.mem_of_getLast? hc)) (by rw [this]; decide)

/-! ### arcs -/

theorem edgesAre_arc {g : DG} {es : List EdgeSpec} (h : EdgesAre g es) (u v : NodeId) : g.Arc u v ↔ (u, v) ∈ es.map (fun e => (e.source, e.target)) := by
  unfold Arc
  rw [h.count, List.countP_pos_iff, List.mem_map]
  constructor
  · rintro ⟨e, he, hd⟩
    simp only [decide_eq_true_eq] at hd
    exact ⟨e, he, by rw [hd.1, hd.2]⟩
  · rintro ⟨e, he, hd⟩
    simp only [Prod.mk.injEq] at hd
    exact ⟨e, he, by simp [hd.1, hd.2]⟩

theorem urml_arc {g : DG} {ns : String} {tokenize : Bool} {doc : UrmlDoc} (h : EdgesAre g (urmlEdges ns tokenize doc)) (u v : NodeId) : g.Arc u v ↔ ∃ a b, doc.Link tokenize a b ∧ u = .str (qual ns a) ∧ v = .str (qual ns b) := by
  rw [edgesAre_arc h, urmlEdges_links, List.mem_map]
  constructor
  · rintro ⟨l, hl, e⟩
    simp only [Prod.mk.injEq] at e
    exact ⟨l.1, l.2, hl, e.1.symm, e.2.symm⟩
  · rintro ⟨a, b, hl, rfl, rfl⟩
    exact ⟨(a, b), hl, rfl⟩

section
variable {g : DG} {ns : String} {R : String → String → Prop} (harc : ∀ u v, g.Arc u v ↔ ∃ a b, R a b ∧ u = .str (qual ns a) ∧ v = .str (qual ns b))
include harc

theorem named_trans {u v : NodeId} (h : Relation.TransGen g.Arc u v) : ∃ a b, u = .str (qual ns a) ∧ v = .str (qual ns b) ∧ Relation.TransGen R a b := by
  induction h with
  | single h =>
    obtain ⟨a, b, hl, rfl, rfl⟩ := (harc _ _).1 h
    exact ⟨a, b, rfl, rfl, .single hl⟩
  | tail _ h ih =>
    obtain ⟨a, b, rfl, rfl, ht⟩ := ih
    obtain ⟨b', c, hl, e, rfl⟩ := (harc _ _).1 h
    have : b = b' := by
      injection e with e
      exact qual_inj e
    subst this
    exact ⟨a, c, rfl, rfl, ht.tail hl⟩

theorem named_acyclic : Acyclic g.Arc ↔ ∀ a, ¬ Relation.TransGen R a a := by
  constructor
  · intro h a ht
    refine h (.str (qual ns a)) ?_
    exact ht.lift (fun a => NodeId.str (qual ns a)) (fun a b hl => (harc _ _).2 ⟨a, b, hl, rfl, rfl⟩)
  · intro h u ht
    obtain ⟨a, b, rfl, e, ht⟩ := named_trans harc ht
    injection e with e
    rw [← qual_inj e] at ht
    exact h a ht

theorem named_chain (p : List NodeId) (hp : p ≠ []) : ∀ u, List.IsChain g.Arc (u :: p) → ∃ a q, u = .str (qual ns a) ∧ p = q.map (fun a => .str (qual ns a)) ∧ List.IsChain R (a :: q) := by
  induction p with
  | nil => exact (hp rfl).elim
  | cons v p ih =>
    intro u h
    rw [List.isChain_cons_cons] at h
    obtain ⟨a, b, hl, rfl, rfl⟩ := (harc _ _).1 h.1
    by_cases hp' : p = []
    · subst hp'
      exact ⟨a, [b], rfl, rfl, by simpa using hl⟩
    · obtain ⟨b', q, e, rfl, hc⟩ := ih hp' _ h.2
      injection e with e
      rw [← qual_inj e] at hc
      exact ⟨a, b :: q, rfl, rfl, by rw [List.isChain_cons_cons]; exact ⟨hl, hc⟩⟩

theorem named_steps (q : List String) : ∀ b, List.IsChain R (b :: q) → ∃ c, Steps g q.length (.str (qual ns b)) c := by
  induction q with
  | nil => intro b _; exact ⟨_, .refl _⟩
  | cons x q ih =>
    intro b h
    rw [List.isChain_cons_cons] at h
    obtain ⟨c, hc⟩ := ih x h.2
    exact ⟨c, .step ((harc _ _).2 ⟨b, x, h.1, rfl, rfl⟩) hc⟩

end

/-! ### the graph before the root is chosen -/

/-- the name of the document -/
def urmlName (name : Option String) (doc : UrmlDoc) : String :=
  match name with
  | some s => if s = "" then doc.id else s
  | none => doc.id

theorem init_state (name ns : String) : DisState ns { init "" ns none with name := name } :=
  ⟨(sees_init name ns).inv, (sees_init name ns).layered, (sees_init name ns).ns⟩

theorem urml_fold (name ns : String) (tokenize : Bool) (doc : UrmlDoc) (hr : ∀ r ∈ doc.relations, r.Ok) : ∃ g, execs { init "" ns none with name := name } (urmlCalls ns tokenize doc) = .ok g ∧ g.name = name ∧ Sees g ((View.new ns).run (urmlCalls ns tokenize doc)) ∧
    urml2graph { init "" ns none with name := name } tokenize doc = (g.urmlSetRoot).map (fun g' => (g', doc.segments.map (fun s => .str (qual ns s.id)))) := by
  obtain ⟨g, e, s, b⟩ := execs_state (init_state name ns) (urmlCalls_ok ns tokenize doc)
  refine ⟨g, e, b.name, (sees_init name ns).built b, ?_⟩
  have hn := (init_state name ns).ns
  unfold urml2graph
  rw [urmlSegments_eq (ns := ns) (r := docRoot ns) doc tokenize doc.segments _ _ hn (sees_init name ns).root]
  rw [urmlCalls, execs_append] at e
  cases he : execs { init "" ns none with name := name } (doc.segments.flatMap (urmlSegCalls ns tokenize doc)) with
  | error x => rw [he] at e; cases e
  | ok g1 =>
    rw [he] at e
    obtain ⟨h1, h2⟩ := execs_ns_root _ he
    simp only [Except.map, bind, Except.bind] at e ⊢
    rw [urmlRelations_ok doc.relations hr g1 (h1.trans hn) rfl, e]
    simp only [List.nil_append]
    cases g.urmlSetRoot <;> rfl

theorem urml_fold_bad (name ns : String) (tokenize : Bool) (doc : UrmlDoc) (hr : ∃ r ∈ doc.relations, ¬ r.Ok) : urml2graph { init "" ns none with name := name } tokenize doc = .error .assertion := by
  have hn := (init_state name ns).ns
  unfold urml2graph
  rw [urmlSegments_eq (ns := ns) (r := docRoot ns) doc tokenize doc.segments _ _ hn (sees_init name ns).root]
  obtain ⟨g1, e1, s1, _⟩ := execs_state (init_state name ns) (s := doc.segments.flatMap (urmlSegCalls ns tokenize doc)) (fun i hi => urmlCalls_ok ns tokenize doc i (List.mem_append_left _ hi))
  rw [e1]
  simp only [Except.map, bind, Except.bind]
  rw [urmlRelations_bad doc.relations hr g1 s1]

/-! ### the root -/

theorem setAttr_name {g g' : DG} {n : NodeId} {k : String} {v : Val} (h : g.setAttr n k v = .ok g') : g'.name = g.name := by
  unfold DG.setAttr at h
  cases hf : find g.nodes n with
  | none => rw [hf] at h; cases h
  | some a => rw [hf] at h; cases h; rfl

theorem removeNode_name {g g' : DG} {n : NodeId} (h : g.removeNode n = .ok g') : g'.name = g.name := by
  unfold removeNode at h
  split at h
  · cases h; rfl
  · cases h

/-- the content after the root has been chosen -/
def urmlView (ns : String) (tokenize : Bool) (doc : UrmlDoc) (extra : List EdgeSpec) (r : String) : View where
  ns := ns
  root := .str (qual ns r)
  tokens := (doc.tokens tokenize).map (fun t => .str (qual ns t.1))
  sentences := []
  has m := ∃ a, doc.Named tokenize a ∧ m = .str (qual ns a)
  attr m k := if m = .str (qual ns r) ∧ k = "metadata" then some (.dict []) else lastWrite m k (urmlCalls ns tokenize doc)
  layer m l := (∃ i ∈ urmlCalls ns tokenize doc, i.GivesLayer m l) ∨ (Implicit m (urmlCalls ns tokenize doc) ∧ l = .str ns)
  edges := urmlEdges ns tokenize doc ++ extra

theorem write_mentions {m : NodeId} {k : String} {i : Instr} {v : Val} (hi : i.Ok (fun _ => False)) (h : i.write m k = some v) : i.Mentions m := by
  cases i with
  | node n ls d =>
    simp only [Instr.write] at h
    split at h
    · rename_i e; exact e
    · cases h
  | edge => cases h
  | attr => exact hi.1.elim
  | token => cases h
  | sentence => cases h

theorem gives_mentions {m : NodeId} {l : Atom} {i : Instr} (h : i.GivesLayer m l) : i.Mentions m := by
  cases i with
  | node n ls d => exact h.1
  | edge => cases h
  | attr => cases h
  | token => cases h
  | sentence => cases h

theorem implicit_mentions {m : NodeId} {s : List Instr} (h : Implicit m s) : ∃ i ∈ s, i.Mentions m := by
  induction s with
  | nil => cases h
  | cons i s ih =>
    rcases h with h | ⟨_, h⟩
    · exact ⟨i, .head _, h.1⟩
    · obtain ⟨j, hj, hm⟩ := ih h
      exact ⟨j, .tail _ hj, hm⟩

theorem root_unnamed {ns : String} {tokenize : Bool} {doc : UrmlDoc} (hroot : "root_node" ∉ doc.ids ++ doc.argIds) : ¬ ∃ a, doc.Named tokenize a ∧ docRoot ns = .str (qual ns a) := by
  rintro ⟨a, ha, e⟩
  unfold docRoot at e
  injection e with e
  rw [← qual_inj e] at ha
  rcases ha with h | h | h
  · exact hroot (List.mem_append_left _ h)
  · exact hroot (List.mem_append_right _ h)
  · exact token_ne_root h

theorem link_named {tokenize : Bool} {doc : UrmlDoc} (hr : ∀ r ∈ doc.relations, r.Ok) {a b : String} (h : doc.Link tokenize a b) : doc.Named tokenize a ∧ doc.Named tokenize b := by
  rcases List.mem_append.1 h with h | h
  · obtain ⟨s, hs, h⟩ := List.mem_flatMap.1 h
    obtain ⟨t, ht, h⟩ := List.mem_map.1 h
    cases h
    exact ⟨.inl (List.mem_append_left _ (List.mem_map.2 ⟨s, hs, rfl⟩)), .inr (.inr (List.mem_map.2 ⟨t, List.mem_flatMap.2 ⟨s, hs, ht⟩, rfl⟩))⟩
  · obtain ⟨r, hrm, h⟩ := List.mem_flatMap.1 h
    obtain ⟨h1, h2⟩ := rel_links_named (hr r hrm) h
    refine ⟨?_, .inr (.inl (List.mem_flatMap.2 ⟨r, hrm, h2⟩))⟩
    rcases h1 with h1 | h1
    · exact .inl (List.mem_append_right _ (List.mem_map.2 ⟨r, hrm, h1.symm⟩))
    · exact .inr (.inl (List.mem_flatMap.2 ⟨r, hrm, h1⟩))

theorem urmlSetRoot_spec {ns : String} {tokenize : Bool} {doc : UrmlDoc} (hr : ∀ r ∈ doc.relations, r.Ok) (hroot : "root_node" ∉ doc.ids ++ doc.argIds) {g : DG} (hs : Sees g ((View.new ns).run (urmlCalls ns tokenize doc))) :
    (¬ doc.NoCycle tokenize → g.urmlSetRoot = .error .unfeasible) ∧
    (doc.NoCycle tokenize → doc.links tokenize = [] → g.urmlSetRoot = .error .index) ∧
    (doc.NoCycle tokenize → doc.links tokenize ≠ [] → ∃ g' r, g.urmlSetRoot = .ok g' ∧ g'.name = g.name ∧ doc.LongestFrom tokenize r ∧ Sees g' (urmlView ns tokenize doc [] r)) := by
  have hedges : EdgesAre g (urmlEdges ns tokenize doc) := by
    have := hs.edges
    simpa [View.run, View.new, urmlCalls_spec] using this
  have harc := urml_arc hedges
  have hac := named_acyclic harc
  have hne : g.nodes ≠ [] := by
    intro e
    have : g.HasNode (docRoot ns) := (hs.nodes _).2 (.inl rfl)
    unfold HasNode at this
    rw [e] at this
    cases this
  obtain ⟨s1, s2, s3⟩ := dagLongestPath_spec hs.inv.wf hne
  refine ⟨?_, ?_, ?_⟩
  · intro h
    unfold urmlSetRoot
    rw [s1 (fun x => h (hac.1 x))]
    rfl
  · intro h he
    unfold urmlSetRoot
    rw [s2 (hac.2 h) (by
      intro u v huv
      obtain ⟨a, b, hl, _⟩ := (harc u v).1 huv
      unfold UrmlDoc.Link at hl
      rw [he] at hl
      cases hl)]
    rfl
  · intro h he
    obtain ⟨⟨a0, b0⟩, rest, hl⟩ := List.exists_cons_of_ne_nil he
    obtain ⟨u, p, hp, hc, hpn, hmax⟩ := s3 (hac.2 h) ⟨_, _, (harc _ _).2 ⟨a0, b0, by unfold UrmlDoc.Link; rw [hl]; exact .head _, rfl, rfl⟩⟩
    obtain ⟨r, q, rfl, rfl, hq⟩ := named_chain harc p hpn u hc
    have hlong : doc.LongestFrom tokenize r := by
      refine ⟨q, by simpa using hpn, hq, ?_⟩
      intro b x hx
      obtain ⟨c, hc⟩ := named_steps harc x b hx
      simpa using hmax _ _ _ hc
    have hrn : doc.Named tokenize r := by
      cases q with
      | nil => simp at hpn
      | cons x q =>
        rw [List.isChain_cons_cons] at hq
        exact (link_named hr hq.1).1
    have hno := root_unnamed (ns := ns) (tokenize := tokenize) hroot
    have hrr : docRoot ns ≠ .str (qual ns r) := fun e => hno ⟨r, hrn, e⟩
    have hnom : ∀ i ∈ urmlCalls ns tokenize doc, ¬ i.Mentions (docRoot ns) := fun i hi hm => hno ((urmlCalls_mentions ns tokenize doc hr _).1 ⟨i, hi, hm⟩)
    have hnow : ∀ k, lastWrite (docRoot ns) k (urmlCalls ns tokenize doc) = none := by
      intro k
      apply lastWrite_none
      intro i hi
      cases hw : i.write (docRoot ns) k with
      | none => rfl
      | some v => exact (hnom i hi (write_mentions (urmlCalls_ok ns tokenize doc i hi) hw)).elim
    have hmeta : g.getAttr g.root "metadata" = .ok (.dict []) := by
      rw [getAttr_ok, hs.root, hs.attr _ _ (by decide)]
      show (lastWrite (docRoot ns) "metadata" _).or (if docRoot ns = docRoot ns ∧ "metadata" = "metadata" then some (.dict []) else none) = _
      rw [hnow]
      simp
    have hsr := hs.withRoot (.str (qual ns r))
    have hhas : ((View.new ns).run (urmlCalls ns tokenize doc)).has (.str (qual ns r)) := .inr ((urmlCalls_mentions ns tokenize doc hr _).2 ⟨r, hrn, rfl⟩)
    obtain ⟨g1, e1, v1⟩ := hsr.setAttr (n := .str (qual ns r)) hhas (k := "metadata") (.dict []) (by decide)
    obtain ⟨g2, e2, v2⟩ := v1.remove (n := docRoot ns) (.inl rfl) (by
      intro e hem
      have hem' : e ∈ urmlEdges ns tokenize doc := by
        have hx : e ∈ (View.new ns).edges ++ (urmlCalls ns tokenize doc).filterMap Instr.spec := hem
        rw [urmlCalls_spec] at hx
        simpa [View.new] using hx
      have hml : (e.source, e.target) ∈ (doc.links tokenize).map (fun l => ((.str (qual ns l.1), .str (qual ns l.2)) : NodeId × NodeId)) := by
        rw [← urmlEdges_links]
        exact List.mem_map.2 ⟨e, hem', rfl⟩
      obtain ⟨l, hl, hle⟩ := List.mem_map.1 hml
      simp only [Prod.mk.injEq] at hle
      have hnn := link_named hr (show doc.Link tokenize l.1 l.2 from hl)
      exact ⟨fun x => hno ⟨_, hnn.1, (hle.1.trans x).symm⟩, fun x => hno ⟨_, hnn.2, (hle.2.trans x).symm⟩⟩)
    refine ⟨g2, r, ?_, ?_, hlong, ?_⟩
    · unfold urmlSetRoot
      rw [hp]
      simp only [bind, Except.bind, hmeta]
      rw [e1]
      simp only
      rw [hs.root]
      exact e2
    · rw [removeNode_name e2, setAttr_name e1]
    · refine v2.congr rfl rfl ?_ ?_ ?_ ?_ ?_ ?_
      · show (urmlView ns tokenize doc [] r).tokens = [] ++ (urmlCalls ns tokenize doc).flatMap Instr.newTokens
        rw [urmlCalls_tokens]
        rfl
      · show ([] : List NodeId) = [] ++ (urmlCalls ns tokenize doc).flatMap Instr.newSentences
        rw [urmlCalls_sentences]
        rfl
      · intro m
        show (∃ a, doc.Named tokenize a ∧ m = .str (qual ns a)) ↔ (m = docRoot ns ∨ ∃ i ∈ urmlCalls ns tokenize doc, i.Mentions m) ∧ m ≠ docRoot ns
        rw [urmlCalls_mentions ns tokenize doc hr]
        constructor
        · intro hx
          exact ⟨.inr hx, fun e => hno (e ▸ hx)⟩
        · rintro ⟨hx | hx, hm⟩
          · exact (hm hx).elim
          · exact hx
      · intro m k hk
        show (if m = .str (qual ns r) ∧ k = "metadata" then some (.dict []) else lastWrite m k (urmlCalls ns tokenize doc)) =
          if m = docRoot ns then none else (if m = .str (qual ns r) then (find [("metadata", Val.dict [])] k).or ((lastWrite m k (urmlCalls ns tokenize doc)).or (if m = docRoot ns ∧ k = "metadata" then some (.dict []) else none))
            else ((lastWrite m k (urmlCalls ns tokenize doc)).or (if m = docRoot ns ∧ k = "metadata" then some (.dict []) else none)))
        by_cases hm : m = docRoot ns
        · subst hm
          simp [hrr, hnow]
        · simp only [hm, if_false, false_and, Option.or_none]
          by_cases hm2 : m = .str (qual ns r)
          · simp only [hm2, true_and, if_true, find]
            by_cases hk2 : k = "metadata"
            · simp [hk2]
            · simp [hk2, Ne.symm hk2]
          · simp [hm2]
      · intro m l
        show ((∃ i ∈ urmlCalls ns tokenize doc, i.GivesLayer m l) ∨ (Implicit m (urmlCalls ns tokenize doc) ∧ l = .str ns)) ↔
          ((m = docRoot ns ∧ l = .str ns) ∨ (∃ i ∈ urmlCalls ns tokenize doc, i.GivesLayer m l) ∨ (¬ m = docRoot ns ∧ Implicit m (urmlCalls ns tokenize doc) ∧ l = .str ns)) ∧ m ≠ docRoot ns
        by_cases hm : m = docRoot ns
        · subst hm
          constructor
          · rintro (⟨i, hi, hx⟩ | ⟨hx, _⟩)
            · exact (hnom i hi (gives_mentions hx)).elim
            · obtain ⟨i, hi, hm⟩ := implicit_mentions hx
              exact (hnom i hi hm).elim
          · rintro ⟨_, hx⟩
            exact (hx rfl).elim
        · simp [hm]
      · show List.Perm ([] ++ (urmlCalls ns tokenize doc).filterMap Instr.spec) (urmlEdges ns tokenize doc ++ [])
        rw [urmlCalls_spec]
        simp

/-! ### the reader -/

theorem urmlRead_eq (name : Option String) (ns : String) (tokenize precedence : Bool) (doc : UrmlDoc) : urmlRead name ns tokenize precedence doc =
    (urml2graph { init "" ns none with name := urmlName name doc } tokenize doc >>= fun st => (if tokenize ∧ precedence then batch st.1.addPrecedenceRelations else .ok st.1) >>= fun g => g.getAttr g.root "metadata" >>= fun _ => .ok (g, st.2)) := by
  have key : ∀ nm : String, (do
      let st ← urml2graph { init "" ns none with name := nm } tokenize doc
      let g ← if tokenize ∧ precedence then batch st.1.addPrecedenceRelations else .ok st.1
      let _ ← g.getAttr g.root "metadata"
      return (g, st.2) : Except PyErr (DG × List NodeId)) =
    (urml2graph { init "" ns none with name := nm } tokenize doc >>= fun st => (if tokenize ∧ precedence then batch st.1.addPrecedenceRelations else .ok st.1) >>= fun g => g.getAttr g.root "metadata" >>= fun _ => .ok (g, st.2)) := by
    intro nm
    congr 1
    funext st
    dsimp only
    split <;> rfl
  cases name <;> exact key _

theorem urmlRead_bad (name : Option String) (ns : String) (tokenize precedence : Bool) (doc : UrmlDoc) (hr : ∃ r ∈ doc.relations, ¬ r.Ok) : urmlRead name ns tokenize precedence doc = .error .assertion := by
  have := urml_fold_bad (urmlName name doc) ns tokenize doc hr
  rw [urmlRead_eq, this]
  rfl

/-- the precedence edges, if they are wanted -/
def urmlPrec (ns : String) (tokenize precedence : Bool) (doc : UrmlDoc) (r : String) : List EdgeSpec :=
  if tokenize ∧ precedence then precEdges ns (.str (qual ns r)) ((doc.tokens tokenize).map (fun t => .str (qual ns t.1))) else []

theorem urmlRead_spec (name : Option String) (ns : String) (tokenize precedence : Bool) (doc : UrmlDoc) (hr : ∀ r ∈ doc.relations, r.Ok) (hroot : "root_node" ∉ doc.ids ++ doc.argIds) :
    (¬ doc.NoCycle tokenize → urmlRead name ns tokenize precedence doc = .error .unfeasible) ∧
    (doc.NoCycle tokenize → doc.links tokenize = [] → urmlRead name ns tokenize precedence doc = .error .index) ∧
    (doc.NoCycle tokenize → doc.links tokenize ≠ [] → tokenize = true → precedence = true → (doc.tokens tokenize).length < 2 → urmlRead name ns tokenize precedence doc = .error .assertion) ∧
    (doc.NoCycle tokenize → doc.links tokenize ≠ [] → (tokenize = true → precedence = true → 2 ≤ (doc.tokens tokenize).length) →
      ∃ g r, urmlRead name ns tokenize precedence doc = .ok (g, doc.segments.map (fun s => .str (qual ns s.id))) ∧ g.name = urmlName name doc ∧ doc.LongestFrom tokenize r ∧ Sees g (urmlView ns tokenize doc (urmlPrec ns tokenize precedence doc r) r)) := by
  obtain ⟨g, _, hname, hs, e⟩ := urml_fold (urmlName name doc) ns tokenize doc hr
  obtain ⟨s1, s2, s3⟩ := urmlSetRoot_spec hr hroot hs
  have hrn : ∀ r, doc.LongestFrom tokenize r → doc.Named tokenize r := by
    rintro r ⟨q, hq, hc, _⟩
    cases q with
    | nil => exact (hq rfl).elim
    | cons x q =>
      rw [List.isChain_cons_cons] at hc
      exact (link_named hr hc.1).1
  have hmeta : ∀ g' r, (∃ ex, Sees g' (urmlView ns tokenize doc ex r)) → g'.getAttr g'.root "metadata" = .ok (.dict []) := by
    rintro g' r ⟨ex, v⟩
    rw [getAttr_ok, v.root, v.attr _ _ (by decide)]
    simp [urmlView]
  refine ⟨?_, ?_, ?_, ?_⟩
  · intro h
    rw [urmlRead_eq, e, s1 h]
    rfl
  · intro h h'
    rw [urmlRead_eq, e, s2 h h']
    rfl
  · intro h h' ht hp h2
    obtain ⟨g', r, e', _, _, v⟩ := s3 h h'
    rw [urmlRead_eq, e, e']
    simp only [Except.map, bind, Except.bind]
    rw [if_pos ⟨ht, hp⟩]
    have hb : batch g'.addPrecedenceRelations = .error .assertion := by
      unfold addPrecedenceRelations
      rw [v.tokens]
      show batch (match (doc.tokens tokenize).map (fun t => NodeId.str (qual ns t.1)) with | t0 :: t1 :: rest => _ | _ => _) = _
      match hx : doc.tokens tokenize, h2 with
      | [], _ => rfl
      | [_], _ => rfl
    rw [hb]
  · intro h h' h2
    obtain ⟨g', r, e', hn', hl, v⟩ := s3 h h'
    by_cases htp : tokenize = true ∧ precedence = true
    · have hd : DisState ns g' := ⟨v.inv, v.layered, v.ns⟩
      obtain ⟨g2, e2, e3⟩ := precedence_execs hd (by rw [v.tokens]; simpa [urmlView] using h2 htp.1 htp.2)
      have hok : ScriptOk g'.HasNode (edgeCalls (precEdges ns g'.root g'.tokens)) := edgeCalls_ok (by
        intro x hx
        obtain ⟨y, _, rfl⟩ := List.mem_map.1 hx
        exact ⟨by simp [precEdge], by simp [precEdge, keys]⟩) _
      obtain ⟨g3, e4, b⟩ := execs_built _ v.inv v.layered hok
      rw [e3] at e4
      cases e4
      have hv : Sees g2 (urmlView ns tokenize doc (urmlPrec ns tokenize precedence doc r) r) := by
        obtain ⟨g4, e5, v4⟩ := precedence_ok v ⟨r, hrn r hl, rfl⟩ (by
          intro t ht
          obtain ⟨x, hx, rfl⟩ := List.mem_map.1 ht
          exact ⟨_, .inr (.inr (List.mem_map.2 ⟨x, hx, rfl⟩)), rfl⟩) (by simpa [urmlView] using h2 htp.1 htp.2)
        have e6 := e2
        unfold batch at e6
        rw [e5] at e6
        cases e6
        refine v4.congr rfl rfl rfl rfl (fun _ => Iff.rfl) (fun _ _ _ => rfl) (fun _ _ => Iff.rfl) ?_
        simp [urmlView, urmlPrec, htp]
      refine ⟨g2, r, ?_, ?_, hl, hv⟩
      · rw [urmlRead_eq, e, e']
        simp only [Except.map, bind, Except.bind]
        rw [if_pos htp, e2]
        simp only
        rw [hmeta g2 r ⟨_, hv⟩]
      · rw [b.name, hn', hname]
    · have hv : Sees g' (urmlView ns tokenize doc (urmlPrec ns tokenize precedence doc r) r) := by
        rw [show urmlPrec ns tokenize precedence doc r = [] from if_neg htp]
        exact v
      refine ⟨g', r, ?_, hn'.trans hname, hl, hv⟩
      rw [urmlRead_eq, e, e']
      simp only [Except.map, bind, Except.bind]
      rw [if_neg htp]
      simp only
      rw [hmeta g' r ⟨_, hv⟩]

end DG
end Dg
