import Verif.Props.C60
import Verif.Model.Offsets

/-! **C60** (continued): trees, examples and failures. -/

namespace Dg
open Dict
namespace DG

/-! ### hierarchical documents have no cycles -/

/-- the same argument ID belongs to the same relation -/
theorem arg_unique {doc : UrmlDoc} (h : doc.argIds.Nodup) {r r' : UrmlRel} (hr : r ∈ doc.relations) (hr' : r' ∈ doc.relations) {b : String} (hb : b ∈ r.args.map Prod.snd) (hb' : b ∈ r'.args.map Prod.snd) : r = r' := by
  unfold UrmlDoc.argIds at h
  have hp := (List.nodup_flatMap.1 h).2
  obtain ⟨i, hi, rfl⟩ := List.mem_iff_getElem.1 hr
  obtain ⟨j, hj, rfl⟩ := List.mem_iff_getElem.1 hr'
  rw [List.pairwise_iff_getElem] at hp
  rcases Nat.lt_trichotomy i j with hij | rfl | hij
  · exact (List.disjoint_left.1 (hp i j hi hj hij) hb hb').elim
  · rfl
  · exact (List.disjoint_left.1 (hp j i hj hi hij) hb' hb).elim

theorem args_nodup {doc : UrmlDoc} (h : doc.argIds.Nodup) {r : UrmlRel} (hr : r ∈ doc.relations) : (r.args.map Prod.snd).Nodup := (List.nodup_flatMap.1 h).1 r hr

/-- arguments of a hypotactic relation -/
theorem hyp_args {r : UrmlRel} (hr : r.Ok) (hp : ¬ r.par = true) : r.nucleus ∈ r.args.map Prod.snd ∧ r.satellite ∈ r.args.map Prod.snd ∧ ((r.args.map Prod.snd).Nodup → r.nucleus ≠ r.satellite) := by
  rcases hr with hr | ⟨a, b, hr | hr⟩
  · exact (hp hr).elim
  · unfold UrmlRel.nucleus UrmlRel.satellite
    rw [hr]
    simp
  · unfold UrmlRel.nucleus UrmlRel.satellite
    rw [hr]
    simp [eq_comm]

theorem link_cases {tokenize : Bool} {doc : UrmlDoc} (hr : ∀ r ∈ doc.relations, r.Ok) {a b : String} (h : doc.Link tokenize a b) :
    (∃ s ∈ doc.segments, a = s.id ∧ ∃ t ∈ s.tokens tokenize, b = t.1) ∨ doc.Contains a b ∨ ∃ r ∈ doc.relations, ¬ r.par = true ∧ a = r.nucleus ∧ b = r.satellite := by
  rcases List.mem_append.1 h with h | h
  · obtain ⟨s, hs, h⟩ := List.mem_flatMap.1 h
    obtain ⟨t, ht, h⟩ := List.mem_map.1 h
    cases h
    exact .inl ⟨s, hs, rfl, t, ht, rfl⟩
  · obtain ⟨r, hrm, h⟩ := List.mem_flatMap.1 h
    unfold UrmlRel.links at h
    split at h
    · obtain ⟨x, hx, h⟩ := List.mem_map.1 h
      cases h
      exact .inr (.inl ⟨r, hrm, rfl, List.mem_map.2 ⟨x, hx, rfl⟩⟩)
    · rename_i hp
      simp only [List.mem_cons, List.not_mem_nil, or_false, Prod.mk.injEq] at h
      rcases h with ⟨rfl, rfl⟩ | ⟨rfl, rfl⟩
      · exact .inr (.inl ⟨r, hrm, rfl, (hyp_args (hr r hrm) hp).1⟩)
      · exact .inr (.inr ⟨r, hrm, hp, rfl, rfl⟩)

/-- what a path between elements that are not tokens looks like -/
theorem link_path {tokenize : Bool} {doc : UrmlDoc} (h : doc.Ok) (ho : doc.argIds.Nodup) {x z : String} (hz : z ∉ (doc.tokens tokenize).map Prod.fst) (ht : Relation.TransGen (doc.Link tokenize) x z) :
    Relation.TransGen doc.Contains x z ∨ ∃ r ∈ doc.relations, ¬ r.par = true ∧ x = r.nucleus ∧ (z = r.satellite ∨ Relation.TransGen doc.Contains r.satellite z) := by
  induction ht using Relation.TransGen.head_induction_on with
  | single hl =>
    rcases link_cases h.rels hl with ⟨s, hs, _, t, ht, rfl⟩ | hc | ⟨r, hr, hp, rfl, rfl⟩
    · exact (hz (List.mem_map.2 ⟨t, List.mem_flatMap.2 ⟨s, hs, ht⟩, rfl⟩)).elim
    · exact .inl (.single hc)
    · exact .inr ⟨r, hr, hp, rfl, .inl rfl⟩
  | head hl hrest ih =>
    rename_i a c
    rcases link_cases h.rels hl with ⟨s, hs, _, t, ht, rfl⟩ | hc | ⟨r, hr, hp, rfl, rfl⟩
    · obtain ⟨y, hy, _⟩ := Relation.TransGen.head'_iff.1 hrest
      exact (h.tok_fresh (List.mem_flatMap.2 ⟨s, hs, ht⟩) (link_source h.rels hy)).elim
    · rcases ih with ih | ⟨r, hr, hp, rfl, hx⟩
      · exact .inl (.head hc ih)
      · obtain ⟨r', hr', rfl, hm⟩ := hc
        have ha := hyp_args (h.rels r hr) hp
        obtain rfl := arg_unique ho hr hr' ha.1 hm
        have hcs : doc.Contains r.id r.satellite := ⟨r, hr, rfl, ha.2.1⟩
        rcases hx with rfl | hx
        · exact .inl (.single hcs)
        · exact .inl (.head hcs hx)
    · rcases ih with ih | ⟨r', hr', hp', e, hx⟩
      · exact .inr ⟨r, hr, hp, rfl, .inr ih⟩
      · have ha := hyp_args (h.rels r hr) hp
        have ha' := hyp_args (h.rels r' hr') hp'
        obtain rfl := arg_unique ho hr hr' ha.2.1 (e ▸ ha'.1)
        exact (ha.2.2 (args_nodup ho hr) e.symm).elim

theorem hierarchical_noCycle {tokenize : Bool} {doc : UrmlDoc} (h : doc.Ok) (hh : doc.Hierarchical) : doc.NoCycle tokenize := by
  intro a ht
  have hna : a ∉ (doc.tokens tokenize).map Prod.fst := by
    intro hm
    obtain ⟨t, htm, rfl⟩ := List.mem_map.1 hm
    obtain ⟨y, hy, _⟩ := Relation.TransGen.head'_iff.1 ht
    exact h.tok_fresh htm (link_source h.rels hy)
  rcases link_path h hh.once hna ht with hc | ⟨r, hr, hp, rfl, hx⟩
  · exact hh.acyclic a hc
  · have ha := hyp_args (h.rels r hr) hp
    rcases hx with hx | hx
    · exact ha.2.2 (args_nodup hh.once hr) hx
    · obtain ⟨q, hq, hqc⟩ := Relation.TransGen.tail'_iff.1 hx
      obtain ⟨r', hr', rfl, hm⟩ := hqc
      obtain rfl := arg_unique hh.once hr hr' ha.1 hm
      refine hh.acyclic r.id ?_
      exact Relation.TransGen.head' ⟨r, hr, rfl, ha.2.1⟩ hq

/-! ### one incoming edge -/

theorem rel_targets {r : UrmlRel} (hr : r.Ok) : (r.links.map Prod.snd).Perm (r.args.map Prod.snd) := by
  unfold UrmlRel.links
  split
  · rw [List.map_map]
    exact List.Perm.refl _
  · rename_i hp
    rcases hr with hr | ⟨a, b, hr | hr⟩
    · exact (hp hr).elim
    · unfold UrmlRel.nucleus UrmlRel.satellite
      rw [hr]
      simp
    · unfold UrmlRel.nucleus UrmlRel.satellite
      rw [hr]
      simpa using List.Perm.swap _ _ _

theorem flatMap_perm_congr {α β : Type} {f f' : α → List β} {xs : List α} (h : ∀ x ∈ xs, (f x).Perm (f' x)) : (xs.flatMap f).Perm (xs.flatMap f') := by
  induction xs with
  | nil => exact List.Perm.refl _
  | cons x xs ih =>
    rw [List.flatMap_cons, List.flatMap_cons]
    exact (h x (by simp)).append (ih (fun y hy => h y (by simp [hy])))

theorem link_targets {tokenize : Bool} {doc : UrmlDoc} (hr : ∀ r ∈ doc.relations, r.Ok) : ((doc.links tokenize).map Prod.snd).Perm ((doc.tokens tokenize).map Prod.fst ++ doc.argIds) := by
  unfold UrmlDoc.links UrmlDoc.tokens UrmlDoc.argIds
  rw [List.map_append, List.map_flatMap, List.map_flatMap, List.map_flatMap]
  refine List.Perm.append ?_ (flatMap_perm_congr (fun r hrm => rel_targets (hr r hrm)))
  simp only [List.map_map, Function.comp_def]
  exact List.Perm.refl _

theorem targets_nodup {tokenize : Bool} {doc : UrmlDoc} (h : doc.Ok) (ho : doc.argIds.Nodup) : ((doc.links tokenize).map Prod.snd).Nodup := by
  rw [(link_targets h.rels).nodup_iff]
  refine List.nodup_append'.2 ⟨urmlTokens_nodup h.seg_ids, ho, ?_⟩
  rw [List.disjoint_left]
  intro a ha hb
  obtain ⟨t, ht, rfl⟩ := List.mem_map.1 ha
  exact h.tok_fresh ht (List.mem_append_right _ hb)

theorem has_link {tokenize : Bool} {doc : UrmlDoc} (hr : ∀ r ∈ doc.relations, r.Ok) {a : String} (ha : doc.Named tokenize a) (ht : ¬ doc.Top a) : ∃ b, doc.Link tokenize b a := by
  have : a ∈ (doc.links tokenize).map Prod.snd := by
    rw [(link_targets hr).mem_iff, List.mem_append]
    by_cases hx : a ∈ doc.argIds
    · exact .inr hx
    · rcases ha with ha | ha | ha
      · exact (ht ⟨ha, hx⟩).elim
      · exact (hx ha).elim
      · exact .inl ha
  obtain ⟨l, hl, rfl⟩ := List.mem_map.1 this
  exact ⟨l.1, hl⟩

theorem top_no_link {tokenize : Bool} {doc : UrmlDoc} (h : doc.Ok) {a : String} (ht : doc.Top a) (b : String) : ¬ doc.Link tokenize b a := by
  intro hl
  have : a ∈ (doc.links tokenize).map Prod.snd := List.mem_map.2 ⟨_, hl, rfl⟩
  rw [(link_targets h.rels).mem_iff, List.mem_append] at this
  rcases this with hx | hx
  · obtain ⟨t, htm, rfl⟩ := List.mem_map.1 hx
    exact h.tok_fresh htm (List.mem_append_left _ ht.1)
  · exact ht.2 hx

/-- going up from any element ends at the only top element -/
theorem reach_top {tokenize : Bool} {doc : UrmlDoc} (h : doc.Ok) {top : String} (htop : ∀ a, doc.Top a ↔ a = top) (k : Nat) : ∀ a, doc.Named tokenize a → Relation.ReflTransGen (doc.Link tokenize) top a ∨
    ∃ b q, List.IsChain (doc.Link tokenize) (b :: q) ∧ q.length = k ∧ doc.Named tokenize b ∧ Relation.ReflTransGen (doc.Link tokenize) b a := by
  induction k with
  | zero => intro a ha; exact .inr ⟨a, [], by simp, rfl, ha, .refl⟩
  | succ k ih =>
    intro a ha
    rcases ih a ha with hx | ⟨b, q, hc, hlen, hb, hba⟩
    · exact .inl hx
    · by_cases hbt : doc.Top b
      · rw [(htop b).1 hbt] at hba
        exact .inl hba
      · obtain ⟨c, hcl⟩ := has_link h.rels hb hbt
        exact .inr ⟨c, b :: q, by rw [List.isChain_cons_cons]; exact ⟨hcl, hc⟩, by simp [hlen], (link_named h.rels hcl).1, .head hcl hba⟩

/-- **C60 (trees)**.  If each segment and relation is argument of one relation at most, and no relation contains itself, directly or indirectly, the document can be read (provided there is anything to connect); without precedence edges, each node that is not a top-level segment or relation has exactly one incoming edge, and top-level nodes have none.  If there is exactly one top-level element, it is the root, and all nodes can be reached from it. -/
theorem c60_tree (name : Option String) (ns : String) (tokenize : Bool) (doc : UrmlDoc) (h : doc.Ok) (hh : doc.Hierarchical) (hne : doc.links tokenize ≠ []) :
    ∃ g edus, urmlRead name ns tokenize false doc = .ok (g, edus) ∧
      (∀ a, doc.Top a → ∀ u, g.edgeCount u (.str (qual ns a)) = 0) ∧
      (∀ m, g.HasNode m → (∀ a, doc.Top a → m ≠ .str (qual ns a)) → ∃ u, g.edgeCount u m = 1 ∧ ∀ v, v ≠ u → g.edgeCount v m = 0) ∧
      (∀ top, (∀ a, doc.Top a ↔ a = top) → g.root = .str (qual ns top) ∧ ∀ m, g.HasNode m → Relation.ReflTransGen g.Arc g.root m) := by
  obtain ⟨_, h4⟩ := c60_reads_partial name ns tokenize false doc h.root
  obtain ⟨g, edus, hread⟩ := (h4 h.rels).2.2.2 (hierarchical_noCycle h hh) hne (by simp)
  obtain ⟨_, _, r, hl, v⟩ := urmlRead_content h hread
  have hed : EdgesAre g (urmlEdges ns tokenize doc) := by
    have := c60_edges name ns tokenize false doc h g edus hread
    simpa using this
  have harc := urml_arc hed
  have inj : ∀ {a b : String}, NodeId.str (qual ns a) = .str (qual ns b) → a = b := by
    intro a b e
    injection e with e
    exact qual_inj e
  have hpair : ∀ e ∈ urmlEdges ns tokenize doc, ∃ l ∈ doc.links tokenize, e.source = .str (qual ns l.1) ∧ e.target = .str (qual ns l.2) := by
    intro e he
    have : (e.source, e.target) ∈ (doc.links tokenize).map (fun l => ((.str (qual ns l.1), .str (qual ns l.2)) : NodeId × NodeId)) := by
      rw [← urmlEdges_links]
      exact List.mem_map.2 ⟨e, he, rfl⟩
    obtain ⟨l, hlm, hle⟩ := List.mem_map.1 this
    simp only [Prod.mk.injEq] at hle
    exact ⟨l, hlm, hle.1.symm, hle.2.symm⟩
  have htn : ((urmlEdges ns tokenize doc).map EdgeSpec.target).Nodup := by
    have h1 : (urmlEdges ns tokenize doc).map EdgeSpec.target = ((doc.links tokenize).map Prod.snd).map (fun a => NodeId.str (qual ns a)) := by
      have := congrArg (List.map Prod.snd) (urmlEdges_links ns tokenize doc)
      simpa [List.map_map, Function.comp_def] using this
    rw [h1]
    exact (targets_nodup h hh.once).map (fun a b e => inj e)
  refine ⟨g, edus, hread, ?_, ?_, ?_⟩
  · intro a ha u
    refine hed.untouched ?_ u
    intro e he ht
    obtain ⟨l, hlm, _, h2⟩ := hpair e he
    rw [h2] at ht
    have hx : doc.Link tokenize l.1 l.2 := hlm
    rw [inj ht] at hx
    exact top_no_link h ha l.1 hx
  · intro m hm hnt
    obtain ⟨a, ha, rfl⟩ := (v.nodes m).1 hm
    obtain ⟨b, hb⟩ := has_link h.rels ha (fun hx => hnt a hx rfl)
    have : ((.str (qual ns b), .str (qual ns a)) : NodeId × NodeId) ∈ (urmlEdges ns tokenize doc).map (fun e => (e.source, e.target)) := by
      rw [urmlEdges_links]
      exact List.mem_map.2 ⟨_, hb, rfl⟩
    obtain ⟨e, he, hee⟩ := List.mem_map.1 this
    simp only [Prod.mk.injEq] at hee
    obtain ⟨h1, h2⟩ := hed.single htn he
    rw [hee.1, hee.2] at h1
    rw [hee.1, hee.2] at h2
    exact ⟨_, h1, h2⟩
  · intro top htop
    have hrt : r = top := by
      rw [← htop]
      obtain ⟨b, hb⟩ := longest_named hl
      by_contra hx
      obtain ⟨c, hc⟩ := has_link h.rels (link_named h.rels hb).1 hx
      exact longest_top hl c hc
    subst hrt
    have hroot : g.root = .str (qual ns r) := v.root
    refine ⟨hroot, ?_⟩
    intro m hm
    obtain ⟨a, ha, rfl⟩ := (v.nodes m).1 hm
    rw [hroot]
    obtain ⟨q, _, _, hmax⟩ := hl
    rcases reach_top h htop (q.length + 1) a ha with hx | ⟨b, q', hc, hlen, _⟩
    · exact hx.lift (fun a => NodeId.str (qual ns a)) (fun a b hl => (harc _ _).2 ⟨a, b, hl, rfl, rfl⟩)
    · have := hmax b q' hc
      omega

/-! ### examples -/

/-- IDs without underscores never look like those of tokens -/
theorem plain_tokens {doc : UrmlDoc} (h : ∀ a ∈ doc.ids ++ doc.argIds, '_' ∉ a.toList) : ∀ s ∈ doc.segments, ∀ i, s.tokenName i ∉ doc.ids ++ doc.argIds := by
  intro s _ i hm
  apply h _ hm
  simp [UrmlSeg.tokenName]

/-- a nucleus with a satellite, and a second nucleus; one of the segments has `<sign>` elements -/
def sampleUrml : UrmlDoc where
  id := "d"
  segments := [⟨"1", some [' ', 'a', ' ', 'b', ' '], []⟩, ⟨"2", some ['x'], [some ['c'], none, some ['d', ' ', 'e']]⟩, ⟨"3", some ['f'], []⟩]
  relations := [⟨"10", false, ['c', 'a', 'u', 's', 'e'], [(.satellite, "2"), (.nucleus, "1")]⟩, ⟨"11", true, ['j', 'o', 'i', 'n', 't'], [(.nucleus, "10"), (.nucleus, "3")]⟩]
  roles := [(.satellite, "2"), (.nucleus, "1"), (.nucleus, "10"), (.nucleus, "3")]

theorem sampleUrml_ok : sampleUrml.Ok :=
  ⟨by decide, plain_tokens (by decide), by decide, by
    intro r hr
    simp only [sampleUrml, List.mem_cons, List.not_mem_nil, or_false] at hr
    rcases hr with rfl | rfl
    · exact .inr ⟨"1", "2", .inr rfl⟩
    · exact .inl rfl⟩

theorem acyclic_of_order {doc : UrmlDoc} (f : String → Nat) (h : ∀ r ∈ doc.relations, ∀ a ∈ r.args, f a.2 < f r.id) : ∀ a, ¬ Relation.TransGen doc.Contains a a := by
  have key : ∀ a b, Relation.TransGen doc.Contains a b → f b < f a := by
    intro a b ht
    induction ht with
    | single hc =>
      obtain ⟨r, hr, rfl, hm⟩ := hc
      obtain ⟨x, hx, rfl⟩ := List.mem_map.1 hm
      exact h r hr x hx
    | tail _ hc ih =>
      obtain ⟨r, hr, rfl, hm⟩ := hc
      obtain ⟨x, hx, rfl⟩ := List.mem_map.1 hm
      exact Nat.lt_trans (h r hr x hx) ih
  intro a ht
  exact Nat.lt_irrefl _ (key a a ht)

theorem sampleUrml_hierarchical : sampleUrml.Hierarchical :=
  ⟨by decide, acyclic_of_order (fun a => if a = "11" then 2 else if a = "10" then 1 else 0) (by decide)⟩

example : sampleUrml.Ok ∧ sampleUrml.Hierarchical ∧ sampleUrml.links true ≠ [] ∧ (urmlRead none "urml" true true sampleUrml).isOk = true ∧ (urmlRead (some "x") "urml" false false sampleUrml).isOk = true ∧ (∃ s ∈ sampleUrml.segments, s.signs ≠ []) :=
  ⟨sampleUrml_ok, sampleUrml_hierarchical, by decide +kernel, by decide +kernel, by decide +kernel, _, .tail _ (.head _), by decide⟩

example : (urmlRead none "urml" true false sampleUrml).toOption.map (fun r => (r.1.root, r.1.getTokens.1.map Prod.snd, r.2, r.1.name)) =
    some (.str "urml:11", [strVal ['a'], strVal ['b'], strVal ['c'], .atom .none, strVal ['d', ' ', 'e'], strVal ['f']], [.str "urml:1", .str "urml:2", .str "urml:3"], "d") := by decide +kernel

/-- the only top-level element of the example is the second relation -/
example : ∀ a, sampleUrml.Top a ↔ a = "11" := by
  intro a
  constructor
  · rintro ⟨h1, h2⟩
    simp [sampleUrml, UrmlDoc.ids, UrmlDoc.argIds] at h1 h2
    tauto
  · rintro rfl
    exact ⟨by decide, by decide⟩

/-- failing documents: a relation with two satellites; a relation that contains itself; no relations -/
example : urmlRead none "urml" true false ⟨"d", [⟨"1", some ['a'], []⟩], [⟨"2", false, [], [(.satellite, "1"), (.satellite, "1")]⟩], []⟩ = .error .assertion ∧
    urmlRead none "urml" true false ⟨"d", [], [⟨"2", true, [], [(.nucleus, "2")]⟩], []⟩ = .error .unfeasible ∧
    urmlRead none "urml" false false ⟨"d", [⟨"1", some ['a'], []⟩], [], []⟩ = .error .index ∧
    urmlRead none "urml" true true ⟨"d", [⟨"1", some ['a'], []⟩], [], []⟩ = .error .assertion := by decide +kernel

/-- an undeclared argument -/
example : ∃ doc : UrmlDoc, doc.Ok ∧ (∃ a ∈ doc.argIds, a ∉ doc.ids) ∧ (urmlRead none "urml" true false doc).isOk = true :=
  ⟨⟨"d", [⟨"1", some ['a'], []⟩], [⟨"2", true, [], [(.nucleus, "1"), (.nucleus, "7")]⟩], []⟩, ⟨by decide, plain_tokens (by decide), by decide, by
    intro r hr
    simp only [List.mem_cons, List.not_mem_nil, or_false] at hr
    rw [hr]
    exact .inl rfl⟩, ⟨"7", by decide, by decide⟩, by decide +kernel⟩

/-! ### failures -/

/-- two alternative analyses of the same two segments -/
def altUrml : UrmlDoc where
  id := "d"
  segments := [⟨"1", some ['a'], []⟩, ⟨"2", some ['b'], []⟩]
  relations := [⟨"10", false, ['c', 'a', 'u', 's', 'e'], [(.nucleus, "1"), (.satellite, "2")]⟩, ⟨"11", false, ['r', 'e', 's', 'u', 'l', 't'], [(.nucleus, "2"), (.satellite, "1")]⟩]
  roles := [(.nucleus, "1"), (.satellite, "2"), (.nucleus, "2"), (.satellite, "1")]

/-- **C60 (finding)**.  URML is meant for underspecified structures, i.e. several analyses of the same segments: but if two segments are nucleus and satellite of one relation and satellite and nucleus of an alternative relation, the document cannot be read (NetworkXUnfeasible), although no relation contains itself. -/
theorem c60_fails_alternatives : ∃ doc : UrmlDoc, doc.Ok ∧ (∀ a ∈ doc.argIds, a ∈ doc.ids) ∧ (∀ a, ¬ Relation.TransGen doc.Contains a a) ∧ ∀ name tokenize precedence, urmlRead name "urml" tokenize precedence doc = .error .unfeasible := by
  have hok : altUrml.Ok := ⟨by decide, plain_tokens (by decide), by decide, by
    intro r hr
    simp only [altUrml, List.mem_cons, List.not_mem_nil, or_false] at hr
    rcases hr with rfl | rfl
    · exact .inr ⟨"1", "2", .inl rfl⟩
    · exact .inr ⟨"2", "1", .inl rfl⟩⟩
  refine ⟨altUrml, hok, by decide, acyclic_of_order (fun a => if a = "1" ∨ a = "2" then 0 else 1) (by decide), ?_⟩
  intro name tokenize precedence
  refine ((c60_reads_partial name "urml" tokenize precedence altUrml hok.root).2 hok.rels).1 ?_
  intro hc
  refine hc "1" (.head (b := "2") ?_ (.single ?_))
  · exact List.mem_append_right _ (by decide)
  · exact List.mem_append_right _ (by decide)

/-- **C60 (finding)**.  The tokens of the nucleus of a hypotactic relation, as returned by get_span, contain those of its satellite, i.e. tokens that are not part of the nucleus. -/
theorem c60_fails_nucleus_span : ∃ doc : UrmlDoc, doc.Ok ∧ doc.Hierarchical ∧ ∃ g edus, urmlRead none "urml" true false doc = .ok (g, edus) ∧ ∃ s ∈ doc.segments, ∃ t ∈ doc.tokens true, t ∉ s.tokens true ∧ ∃ ts, g.getSpan g.nodes.length (.str (qual "urml" s.id)) = .ok ts ∧ .str (qual "urml" t.1) ∈ ts := by
  obtain ⟨g, edus, hg, _⟩ := c60_tree none "urml" true sampleUrml sampleUrml_ok sampleUrml_hierarchical (by decide +kernel)
  have key : (urmlRead none "urml" true false sampleUrml).toOption.map (fun r => (r.1.getSpan r.1.nodes.length (.str "urml:1")).toOption.map (fun ts => decide (NodeId.str "urml:2_0" ∈ ts))) = some (some true) := by decide +kernel
  refine ⟨sampleUrml, sampleUrml_ok, sampleUrml_hierarchical, g, edus, hg, _, .head _, ("2_0", some ['c']), by decide +kernel, by decide +kernel, ?_⟩
  rw [hg] at key
  simp only [Except.toOption, Option.map_some, Option.some.injEq] at key
  have e : qual "urml" "1" = "urml:1" := by decide
  rw [show (NodeId.str (qual "urml" "1")) = .str "urml:1" by rw [e]]
  cases hs : g.getSpan g.nodes.length (.str "urml:1") with
  | error x => rw [hs] at key; simp at key
  | ok ts =>
    rw [hs] at key
    simp only [Option.map_some, Option.some.injEq, decide_eq_true_eq] at key
    exact ⟨ts, rfl, by rw [show qual "urml" "2_0" = "urml:2_0" by decide]; exact key⟩

/-- **C60 (finding)**.  If there are several top-level elements, e.g. a title, they are not connected to the root: the root is the origin of the longest path, and the nodes of the other top-level segments have no incoming edges. -/
theorem c60_fails_connected : ∃ doc : UrmlDoc, doc.Ok ∧ doc.Hierarchical ∧ ∃ g edus, urmlRead none "urml" true false doc = .ok (g, edus) ∧ ∃ s ∈ doc.segments, g.root ≠ .str (qual "urml" s.id) ∧ ¬ Relation.ReflTransGen g.Arc g.root (.str (qual "urml" s.id)) := by
  let doc : UrmlDoc := ⟨"d", [⟨"0", some ['t'], []⟩, ⟨"1", some ['a'], []⟩, ⟨"2", some ['b'], []⟩], [⟨"10", true, [], [(.nucleus, "1"), (.nucleus, "2")]⟩], [(.nucleus, "1"), (.nucleus, "2")]⟩
  have hok : doc.Ok := ⟨by decide, plain_tokens (by decide), by decide, by
    intro r hr
    simp only [doc, List.mem_cons, List.not_mem_nil, or_false] at hr
    rw [hr]
    exact .inl rfl⟩
  have hh : doc.Hierarchical := ⟨by decide, acyclic_of_order (fun a => if a = "10" then 1 else 0) (by decide)⟩
  obtain ⟨g, edus, hg, h0, _⟩ := c60_tree none "urml" true doc hok hh (by decide +kernel)
  have key : (urmlRead none "urml" true false doc).toOption.map (fun r => r.1.root) = some (.str "urml:10") := by decide +kernel
  rw [hg] at key
  have hroot : g.root = .str "urml:10" := by simpa [Except.toOption] using key
  have hne : g.root ≠ .str (qual "urml" "0") := by rw [hroot]; decide
  refine ⟨doc, hok, hh, g, edus, hg, _, .head _, hne, ?_⟩
  intro ht
  rcases Relation.ReflTransGen.cases_tail ht with hx | ⟨u, _, hu⟩
  · exact hne hx.symm
  · have := h0 "0" ⟨by decide, by decide⟩ u
    unfold Arc at hu
    dsimp only at hu
    omega

end DG
end Dg
