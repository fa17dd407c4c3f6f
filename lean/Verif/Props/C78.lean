import Verif.Lemmas.Phrases
import Verif.Lemmas.CopyView
import Verif.Props.C55

/-! C78: queries for phrases. -/

namespace Dg
open Dict
namespace DG

/-- the category of a phrase -/
def HasCat (g : DG) (n : NodeId) (cat : String) : Prop := g.nodeAttr n "tiger:cat" = some (.atom (.str cat))

/-- there is an edge from `p` to `n` -/
def ParentOf (g : DG) (p n : NodeId) : Prop := ∃ k a, g.edgeAttrs p n k = some a

theorem markables_eq {g : DG} (hi : Inv g) (hl : AllLayered g) (hc : ∀ n, g.NodeLayer n (.str "tiger:syntax") → ∃ v, g.nodeAttr n "tiger:cat" = some v) :
    ∃ sel : List NodeId, sel.Nodup ∧ (∀ n, n ∈ sel ↔ g.NodeLayer n (.str "tiger:syntax")) ∧ g.getPotentialMarkables = .ok (sel.flatMap g.markablesOf) := by
  obtain ⟨ps, h1, h2, h3, h4⟩ := selectData_wf hi.wf hl "tiger:syntax"
  refine ⟨_, h2, h4, ?_⟩
  have hm : mapE g.markableStep ps = .ok (ps.map (fun p => g.markablesOf p.1)) := by
    refine mapE_eq_map _ ?_
    rintro ⟨n, a⟩ hp
    obtain ⟨v, hv⟩ := hc n ((h4 n).1 (List.mem_map_of_mem (f := Prod.fst) hp))
    exact markableStep_ok hi (h3 n a hp) hv
  unfold getPotentialMarkables
  simp only [h1, hm, bind, Except.bind, pure, Except.pure]
  congr 1
  rw [List.flatMap_map, List.flatMap]

/-- **C78 (markables)**.  If every node of the layer `tiger:syntax` has a category, `get_potential_markables` returns: the PPs of the layer, the NPs of the layer that have no PP as a parent, and the PPs that are a parent of an NP of the
layer – and no other node. -/
theorem c78_markables_partial (g : DG) (hi : Inv g) (hl : AllLayered g) (hc : ∀ n, g.NodeLayer n (.str "tiger:syntax") → ∃ v, g.nodeAttr n "tiger:cat" = some v) :
    ∃ l, g.getPotentialMarkables = .ok l ∧ ∀ n, n ∈ l ↔
      (g.HasCat n "PP" ∧ (g.NodeLayer n (.str "tiger:syntax") ∨ ∃ m, g.NodeLayer m (.str "tiger:syntax") ∧ g.HasCat m "NP" ∧ g.ParentOf n m)) ∨
      (g.HasCat n "NP" ∧ g.NodeLayer n (.str "tiger:syntax") ∧ ∀ p, g.ParentOf p n → ¬ g.HasCat p "PP") := by
  obtain ⟨sel, -, h2, h3⟩ := markables_eq hi hl hc
  refine ⟨_, h3, ?_⟩
  intro n
  simp only [List.mem_flatMap, h2]
  have hpp : ∀ m p, p ∈ g.ppSources m ↔ g.ParentOf p m ∧ g.HasCat p "PP" := by
    intro m p
    rw [mem_ppSources hi.wf]
    unfold ParentOf EdgeWith HasCat
    rw [exists_comm]
  constructor
  · rintro ⟨m, hm, hn⟩
    unfold markablesOf at hn
    split at hn
    · next hnp =>
      split at hn
      · next hs =>
        obtain rfl := List.mem_singleton.1 hn
        refine .inr ⟨hnp, hm, ?_⟩
        intro p hp hcat
        have := (hpp n p).2 ⟨hp, hcat⟩
        rw [hs] at this; cases this
      · have := (hpp m n).1 hn
        exact .inl ⟨this.2, .inr ⟨m, hm, hnp, this.1⟩⟩
    · split at hn
      · next h => obtain rfl := List.mem_singleton.1 hn; exact .inl ⟨h, .inl hm⟩
      · cases hn
  · have hne : ∀ x, g.HasCat x "PP" → ¬ g.nodeAttr x "tiger:cat" = some (.atom (.str "NP")) := by
      intro x h1 h2
      unfold HasCat at h1
      rw [h1] at h2
      exact absurd h2 (by decide)
    rintro (⟨h, (hL | ⟨m, hm, hnp, he⟩)⟩ | ⟨h, hL, hno⟩)
    · refine ⟨n, hL, ?_⟩
      have hN := hne n h
      unfold HasCat at h
      unfold markablesOf
      rw [if_neg hN, if_pos h]
      exact List.mem_singleton.2 rfl
    · refine ⟨m, hm, ?_⟩
      have hs := (hpp m n).2 ⟨he, h⟩
      unfold markablesOf
      unfold HasCat at hnp
      rw [if_pos hnp, if_neg (fun e => by rw [e] at hs; cases hs)]
      exact hs
    · refine ⟨n, hL, ?_⟩
      have hs : g.ppSources n = [] := by
        rw [List.eq_nil_iff_forall_not_mem]
        intro p hp
        exact hno p ((hpp n p).1 hp).1 ((hpp n p).1 hp).2
      unfold markablesOf
      unfold HasCat at h
      rw [if_pos h, if_pos hs]
      exact List.mem_singleton.2 rfl

theorem count_ppSources {g : DG} (wf : WF g) {n m : NodeId} (h : g.HasCat n "PP") : (g.ppSources m).count n = g.edgeCount n m := by
  rw [← count_copyEdges wf n m]
  unfold ppSources inEdges copyEdges
  rw [List.count, List.countP_map, List.countP_filter, List.countP_filter, List.countP_map]
  refine List.countP_congr ?_
  rintro ⟨u, v, k, a⟩ _
  unfold HasCat at h
  simp only [Function.comp_apply, Instr.isEdge, Bool.and_eq_true, beq_iff_eq, decide_eq_true_eq]
  constructor
  · rintro ⟨⟨h1, _⟩, h3⟩; exact ⟨h1.symm, h3.symm⟩
  · rintro ⟨h1, h3⟩; exact ⟨⟨h1.symm, by rw [← h1]; exact h⟩, h3.symm⟩

theorem sum_map_zero {α : Type} {f : α → Nat} : ∀ {xs : List α}, (∀ x ∈ xs, f x = 0) → (xs.map f).sum = 0
  | [], _ => rfl
  | x :: xs, h => by
    rw [List.map_cons, List.sum_cons, h x (by simp), sum_map_zero (fun y hy => h y (List.mem_cons_of_mem _ hy))]

theorem sum_ite_eq {n : NodeId} (f : NodeId → Nat) : ∀ {sel : List NodeId}, sel.Nodup → f n = 0 →
    (sel.map (fun m => (if m = n then 1 else 0) + f m)).sum = (if n ∈ sel then 1 else 0) + (sel.map f).sum
  | [], _, _ => rfl
  | x :: sel, nd, h0 => by
    rw [List.nodup_cons] at nd
    rw [List.map_cons, List.sum_cons, sum_ite_eq f nd.2 h0, List.map_cons, List.sum_cons]
    by_cases hx : x = n
    · subst hx
      simp only [if_true, if_neg nd.1, List.mem_cons, true_or, h0]
    · by_cases hn : n ∈ sel
      · simp only [if_neg hx, if_pos hn, List.mem_cons, hn, or_true, if_true]; omega
      · simp only [if_neg hx, if_neg hn, List.mem_cons, Ne.symm hx, false_or]; simp

/-- **C78 (how often)**.  An NP occurs at most once in the result.  A PP occurs once for itself – if it is in the layer – and once for each edge from it to an NP of the layer (`nps` are these NPs): contrary to the documentation, a PP with
an NP is not listed once but twice. -/
theorem c78_markables_count (g : DG) (hi : Inv g) (hl : AllLayered g) (hc : ∀ n, g.NodeLayer n (.str "tiger:syntax") → ∃ v, g.nodeAttr n "tiger:cat" = some v) :
    ∃ (l nps : List NodeId), g.getPotentialMarkables = .ok l ∧ nps.Nodup ∧ (∀ m, m ∈ nps ↔ g.NodeLayer m (.str "tiger:syntax") ∧ g.HasCat m "NP") ∧
      (∀ n, g.HasCat n "NP" → l.count n ≤ 1) ∧
      ∀ n, g.HasCat n "PP" → (g.NodeLayer n (.str "tiger:syntax") → l.count n = 1 + (nps.map (g.edgeCount n)).sum) ∧
        (¬ g.NodeLayer n (.str "tiger:syntax") → l.count n = (nps.map (g.edgeCount n)).sum) := by
  obtain ⟨sel, h1, h2, h3⟩ := markables_eq hi hl hc
  refine ⟨_, sel.filter (fun m => decide (g.nodeAttr m "tiger:cat" = some (.atom (.str "NP")))), h3, h1.filter _, ?_, ?_, ?_⟩
  · intro m
    rw [List.mem_filter, h2, decide_eq_true_eq]
    exact Iff.rfl
  · intro n hn
    have hcount : ∀ m, (g.markablesOf m).count n = if m = n ∧ g.ppSources m = [] then 1 else 0 := by
      intro m
      have hs : (g.ppSources m).count n = 0 := by
        rw [List.count_eq_zero]
        intro h
        have := ((mem_ppSources hi.wf).1 h).2
        unfold HasCat at hn
        rw [hn] at this
        exact absurd this (by decide)
      unfold markablesOf
      by_cases hm : m = n
      · subst hm
        unfold HasCat at hn
        rw [if_pos hn]
        by_cases he : g.ppSources m = []
        · simp [he]
        · rw [if_neg he, hs]; simp [he]
      · simp only [hm, false_and, if_false]
        split
        · split
          · simp [hm]
          · exact hs
        · split
          · simp [hm]
          · rfl
    rw [List.count_flatMap]
    have : ∀ {sel : List NodeId}, sel.Nodup → (sel.map (List.count n ∘ g.markablesOf)).sum ≤ 1 := by
      intro sel
      induction sel with
      | nil => intro _; simp
      | cons x sel ih =>
        intro nd
        rw [List.nodup_cons] at nd
        rw [List.map_cons, List.sum_cons, Function.comp_apply, hcount]
        by_cases hx : x = n
        · have hz : (sel.map (List.count n ∘ g.markablesOf)).sum = 0 := by
            refine sum_map_zero ?_
            intro z hz
            rw [Function.comp_apply, hcount, if_neg]
            rintro ⟨rfl, _⟩
            exact nd.1 (hx ▸ hz)
          rw [hz]
          split <;> simp
        · simp only [hx, false_and, if_false, Nat.zero_add]
          exact ih nd.2
    exact this h1
  · intro n hn
    have hnp : ¬ g.nodeAttr n "tiger:cat" = some (.atom (.str "NP")) := by
      intro h
      unfold HasCat at hn
      rw [hn] at h
      exact absurd h (by decide)
    have hcount : ∀ m, (g.markablesOf m).count n = (if m = n then 1 else 0) + if g.nodeAttr m "tiger:cat" = some (.atom (.str "NP")) then g.edgeCount n m else 0 := by
      intro m
      have hs := count_ppSources hi.wf (m := m) hn
      unfold markablesOf
      by_cases hm : m = n
      · subst hm
        unfold HasCat at hn
        rw [if_neg hnp, if_neg hnp, if_pos hn]
        simp
      · by_cases hmn : g.nodeAttr m "tiger:cat" = some (.atom (.str "NP"))
        · rw [if_pos hmn, if_pos hmn, if_neg hm]
          by_cases he : g.ppSources m = []
          · rw [he] at hs
            rw [if_pos he, ← hs]
            simp [hm]
          · rw [if_neg he, hs, Nat.zero_add]
        · rw [if_neg hmn, if_neg hmn, if_neg hm]
          split
          · simp [hm]
          · rfl
    have hsum : (sel.flatMap g.markablesOf).count n = (if n ∈ sel then 1 else 0) + (((sel.filter (fun m => decide (g.nodeAttr m "tiger:cat" = some (.atom (.str "NP"))))).map (g.edgeCount n)).sum) := by
      rw [List.count_flatMap]
      have e1 : sel.map (List.count n ∘ g.markablesOf) = sel.map (fun m => (if m = n then 1 else 0) + if g.nodeAttr m "tiger:cat" = some (.atom (.str "NP")) then g.edgeCount n m else 0) :=
        List.map_congr_left (fun m _ => hcount m)
      rw [e1, sum_ite_eq _ h1 (by rw [if_neg hnp])]
      congr 1
      clear * -
      induction sel with
      | nil => rfl
      | cons x sel ih =>
        rw [List.map_cons, List.sum_cons, ih, List.filter_cons]
        by_cases h : g.nodeAttr x "tiger:cat" = some (.atom (.str "NP"))
        · simp [h]
        · simp [h]
    constructor
    · intro hL
      rw [hsum, if_pos ((h2 n).2 hL)]
    · intro hL
      rw [hsum, if_neg (fun h => hL ((h2 n).1 h)), Nat.zero_add]

/-- **C78 (a node without category)**.  One node of the layer `tiger:syntax` without a category suffices to make `get_potential_markables` raise KeyError. -/
theorem c78_markables_key (g : DG) (hi : Inv g) (hl : AllLayered g) (n : NodeId) (hn : g.NodeLayer n (.str "tiger:syntax")) (hc : g.nodeAttr n "tiger:cat" = none) :
    g.getPotentialMarkables = .error .key := by
  obtain ⟨ps, h1, h2, h3, h4⟩ := selectData_wf hi.wf hl "tiger:syntax"
  have hm : mapE g.markableStep ps = .error .key := by
    refine mapE_all_key ?_ ?_
    · rintro ⟨m, a⟩ hp e he
      cases hv : g.nodeAttr m "tiger:cat" with
      | none =>
        rw [markableStep_key (h3 m a hp) hv] at he
        exact (Except.error.inj he).symm
      | some v => rw [markableStep_ok hi (h3 m a hp) hv] at he; cases he
    · obtain ⟨⟨m, a⟩, hp, rfl⟩ := List.mem_map.1 ((h4 n).2 hn)
      exact ⟨_, hp, markableStep_key (h3 m a hp) hc⟩
  unfold getPotentialMarkables
  simp only [h1, hm, bind, Except.bind]

theorem collect_filter {α : Type} {f : α → Except PyErr (Option α)} {c : α → Bool} : ∀ {xs : List α}, (∀ x ∈ xs, f x = .ok (if c x then some x else none)) → Gen.collect f xs = (xs.filter c, none)
  | [], _ => rfl
  | x :: xs, h => by
    unfold Gen.collect
    rw [h x (by simp), List.filter_cons]
    have ih := collect_filter (f := f) (c := c) (xs := xs) (fun y hy => h y (List.mem_cons_of_mem _ hy))
    cases hc : c x
    · simp [ih]
    · simp [ih]

/-- **C78 (phrases)**.  `get_phrases(ns, layer, cat_key, cat_val)` yields each node of the layer `ns:layer` (the namespace of the graph, if no `ns` is given) whose attribute `cat_key` – in the namespace *of the graph* – is `cat_val`, once,
and no other node, if all nodes of the layer have this attribute. -/
theorem c78_phrases_partial (g : DG) (hi : Inv g) (hl : AllLayered g) (ns : Option String) (layer catKey catVal : String) (p : String) (hp : ns = some p ∧ p ≠ "" ∨ (ns = none ∨ ns = some "") ∧ p = g.ns)
    (hc : ∀ n, g.NodeLayer n (.str (p ++ ":" ++ layer)) → ∃ v, g.nodeAttr n (g.ns ++ ":" ++ catKey) = some v) :
    ∃ l, g.getPhrases ns layer catKey catVal = (l, none) ∧ l.Nodup ∧
      ∀ n, n ∈ l ↔ g.NodeLayer n (.str (p ++ ":" ++ layer)) ∧ g.nodeAttr n (g.ns ++ ":" ++ catKey) = some (.atom (.str catVal)) := by
  have hns : g.phraseNs ns = p := by
    unfold phraseNs
    rcases hp with ⟨rfl, h⟩ | ⟨rfl | rfl, rfl⟩
    · simp [h]
    · rfl
    · rfl
  obtain ⟨ids, h1, h2, _, h4⟩ := selectNodesByLayer_wf hi.wf hl (.one (p ++ ":" ++ layer))
  have hmem : ∀ n, n ∈ ids ↔ g.NodeLayer n (.str (p ++ ":" ++ layer)) := by
    intro n
    rw [h4]
    exact ⟨fun h => h.2, fun h => ⟨by obtain ⟨a, ha, _⟩ := h; exact (hasNode_iff _ _).2 ⟨a, ha⟩, h⟩⟩
  have hcol : Gen.collect (g.phraseStep catKey catVal) ids = (ids.filter (fun n => decide (g.nodeAttr n (g.ns ++ ":" ++ catKey) = some (.atom (.str catVal)))), none) := by
    refine collect_filter ?_
    intro n hn
    obtain ⟨v, hv⟩ := hc n ((hmem n).1 hn)
    unfold phraseStep
    rw [getAttr_ok.2 hv]
    simp only [bind, Except.bind, hv, Option.some.injEq, decide_eq_true_eq]
    rfl
  refine ⟨_, ?_, h2.filter (fun n => decide (g.nodeAttr n (g.ns ++ ":" ++ catKey) = some (.atom (.str catVal)))), ?_⟩
  · unfold getPhrases
    rw [hns]
    simp only [h1, hcol]
  · intro n
    rw [List.mem_filter, hmem, decide_eq_true_eq]

/-- the layers of a node with these attributes are no collection (`add_nodes_from` stores whatever it is given) -/
def OddLayers (a : Attrs) : Prop := find a "layers" = none ∨ ∃ x, find a "layers" = some (.atom x) ∧ ∀ s, x ≠ .str s

theorem collect_error {α β : Type} {f : α → Except PyErr (Option β)} : ∀ {xs : List α}, (∃ x ∈ xs, ∃ e, f x = .error e) → ∃ e, (Gen.collect f xs).2 = some e
  | [], h => by obtain ⟨_, h, _⟩ := h; cases h
  | x :: xs, he => by
    unfold Gen.collect
    cases hx : f x with
    | error e => exact ⟨e, rfl⟩
    | ok y =>
      have ih : ∃ e, (Gen.collect f xs).2 = some e := by
        refine collect_error ?_
        obtain ⟨z, hz, e, h⟩ := he
        rcases List.mem_cons.1 hz with rfl | hz
        · rw [hx] at h; cases h
        · exact ⟨z, hz, e, h⟩
      cases y <;> exact ih

theorem select_odd {g : DG} (hi : Inv g) {n : NodeId} {a : Attrs} (hn : g.nodeAttrs n = some a) (ha : OddLayers a) (l : String) :
    ∃ e, (g.selectNodesByLayerData (.one l)).2 = some e := by
  unfold selectNodesByLayerData
  refine collect_error ⟨(n, a), (mem_nodes_iff hi.wf _ _).2 hn, ?_⟩
  rcases ha with h | ⟨x, h, hx⟩
  · exact ⟨.key, by simp only [layerCondition, layersEntry, h, bind, Except.bind, yieldIf_error]⟩
  · refine ⟨.type, ?_⟩
    cases x with
    | str s => exact absurd rfl (hx s)
    | none => simp only [layerCondition, layersEntry, h, bind, Except.bind, pyIn, yieldIf_error]
    | int i => simp only [layerCondition, layersEntry, h, bind, Except.bind, pyIn, yieldIf_error]
    | other t => simp only [layerCondition, layersEntry, h, bind, Except.bind, pyIn, yieldIf_error]

/-- **C78 (a node without proper layers)**.  One node whose layers are no collection – anywhere in the graph – makes both queries raise an exception. -/
theorem c78_odd_node (g : DG) (hi : Inv g) (n : NodeId) (a : Attrs) (hn : g.nodeAttrs n = some a) (ha : OddLayers a) :
    (∃ e, g.getPotentialMarkables = .error e) ∧ ∀ ns layer catKey catVal, ∃ e, (g.getPhrases ns layer catKey catVal).2 = some e := by
  constructor
  · obtain ⟨e, hs⟩ := select_odd hi hn ha "tiger:syntax"
    unfold getPotentialMarkables
    cases hm : mapE g.markableStep (g.selectNodesByLayerData (.one "tiger:syntax")).1 with
    | error e => exact ⟨e, by simp only [hm, bind, Except.bind]⟩
    | ok xs => exact ⟨e, by simp only [hm, bind, Except.bind, hs]⟩
  · intro ns layer catKey catVal
    obtain ⟨e, hs⟩ := select_odd hi hn ha (g.phraseNs ns ++ ":" ++ layer)
    unfold getPhrases
    dsimp only
    cases hm : (Gen.collect (g.phraseStep catKey catVal) (g.selectNodesByLayer (.one (g.phraseNs ns ++ ":" ++ layer))).1).2 with
    | none => exact ⟨e, hs⟩
    | some e => exact ⟨e, hm⟩

example : ∃ g n a, Reachable g ∧ g.nodeAttrs n = some a ∧ OddLayers a :=
  ⟨(init "" "tiger" none).run [.addNodesFrom [.id (.int 1)] [], .addNodesFrom [.id (.int 1)] [("layers", .atom (.int 5))]], .int 1, [("layers", .atom (.int 5))],
    ⟨"", "tiger", none, _, by simp [Op.Valid, NodeItem.Valid, keys], rfl⟩, by decide +kernel, .inr ⟨_, rfl, fun s h => by cases h⟩⟩

/-! ### phrases of a TigerXML file -/

/-- a nonterminal of the file with this category -/
def Phrase (ss : List TigerS) (n : NodeId) (cat : String) : Prop := ∃ s ∈ ss, ∃ t ∈ s.nts, t.node = n ∧ find t.attrs "cat" = some cat

/-- the file has, or the reader adds, an edge from `p` to `n` -/
def FileParent (ns : String) (ss : List TigerS) (p n : NodeId) : Prop := ∃ e ∈ docEdges ns ss, e.source = p ∧ e.target = n

/-- what the queries need: no terminal has a category, the root of each sentence is a nonterminal, and no nonterminal other than the root is mentioned in an `<edge>` or `<secedge>` before its own element -/
structure PhraseDoc (ns : String) (ss : List TigerS) : Prop where
  valid : ValidDoc ns ss
  ns : ns ≠ "tiger:syntax"
  terms : ∀ s ∈ ss, ∀ t ∈ s.terms, "cat" ∉ keys t.attrs
  root : ∀ s ∈ ss, s.root ∉ s.toks
  order : ∀ s ∈ ss, ∀ t ∈ s.nts, t.node = s.root ∨ early s t.node = false

theorem qual_cat : qual "tiger" "cat" = "tiger:cat" := by decide

theorem allLayered_of {g : DG} (h : NodesLayered False g) : AllLayered g := by
  intro n a ha
  exact (layeredB_false a).1 (h n a ha)

theorem phrase_facts {name ns : String} {ss : List TigerS} (hd : PhraseDoc ns ss) {g : DG} (hg : tigerRead name ns ss = .ok g) :
    (∀ n c, g.HasCat n c ↔ Phrase ss n c) ∧ (∀ n, g.NodeLayer n (.str "tiger:syntax") ↔ ∃ c, Phrase ss n c) ∧ ∀ p n, g.ParentOf p n ↔ FileParent ns ss p n := by
  obtain ⟨g', e, d, _⟩ := tigerRead_graph (name := name) hd.valid
  have hg' := hg
  rw [e] at hg'
  obtain rfl := Except.ok.inj hg'
  have hcatnt : ∀ s ∈ ss, ∀ t ∈ s.nts, ∀ c, g'.HasCat t.node c ↔ find t.attrs "cat" = some c := by
    intro s hs t ht c
    obtain ⟨c', hc', _⟩ := (c55_nonterminal_attributes name ns ss hd.valid g' hg s hs t ht).2.1
    have := (c55_nonterminal_attributes name ns ss hd.valid g' hg s hs t ht).1 "cat" c' hc'
    unfold HasCat
    rw [← qual_cat, this, hc']
    simp
  have hterm : ∀ s ∈ ss, ∀ t ∈ s.terms, g'.nodeAttr t.node "tiger:cat" = none := by
    intro s hs t ht
    cases h : g'.nodeAttr t.node "tiger:cat" with
    | none => rfl
    | some v =>
      exfalso
      rcases (c55_terminal_attributes name ns ss hd.valid g' hg s hs t ht).2.2 _ _ h with h | h | h | ⟨h, _⟩ | ⟨k, hk, h⟩
      · exact absurd h (by decide)
      · exact absurd h (by decide)
      · exact absurd h (by decide)
      · exact absurd h (by decide)
      · rw [← qual_cat] at h
        rw [← qual_inj h] at hk
        exact hd.terms s hs t ht hk
  have hother : ∀ n, n ∉ ss.flatMap TigerS.declared → g'.nodeAttr n "tiger:cat" = none := by
    intro n hn
    rw [d.other n hn _ (by decide), if_neg]
    rintro ⟨_, h⟩
    exact absurd h (by decide)
  have hdecl : ∀ n, n ∈ ss.flatMap TigerS.declared → (∃ s ∈ ss, ∃ t ∈ s.terms, n = t.node) ∨ ∃ s ∈ ss, ∃ t ∈ s.nts, n = t.node := by
    intro n hn
    obtain ⟨s, hs, h⟩ := List.mem_flatMap.1 hn
    rcases List.mem_append.1 h with h | h
    · obtain ⟨t, ht, rfl⟩ := List.mem_map.1 h
      exact .inl ⟨s, hs, t, ht, rfl⟩
    · obtain ⟨t, ht, rfl⟩ := List.mem_map.1 h
      exact .inr ⟨s, hs, t, ht, rfl⟩
  have hlab := fun s hs => c55_layers name ns ss hd.valid g' hg s hs
  have hntL : ∀ s ∈ ss, ∀ t ∈ s.nts, g'.NodeLayer t.node (.str "tiger:syntax") := by
    intro s hs t ht
    by_cases hr : t.node = s.root
    · rw [hr]
      exact ((hlab s hs).2.1 (hd.root s hs) _).2 (by simp)
    · refine ((hlab s hs).2.2 t ht hr _).2 (.inr ?_)
      rcases hd.order s hs t ht with h | h
      · exact absurd h hr
      · rw [h]; rfl
  refine ⟨?_, ?_, ?_⟩
  · intro n c
    constructor
    · intro h
      by_cases hn : n ∈ ss.flatMap TigerS.declared
      · rcases hdecl n hn with ⟨s, hs, t, ht, rfl⟩ | ⟨s, hs, t, ht, rfl⟩
        · unfold HasCat at h
          rw [hterm s hs t ht] at h; cases h
        · exact ⟨s, hs, t, ht, rfl, (hcatnt s hs t ht c).1 h⟩
      · unfold HasCat at h
        rw [hother n hn] at h; cases h
    · rintro ⟨s, hs, t, ht, rfl, h⟩
      exact (hcatnt s hs t ht c).2 h
  · intro n
    constructor
    · intro h
      have hn : g'.HasNode n := by obtain ⟨a, ha, _⟩ := h; exact (hasNode_iff _ _).2 ⟨a, ha⟩
      rcases (d.nodes n).1 hn with rfl | ⟨s, hs, hn⟩
      · have := (d.rootLayer _).1 h
        exact absurd (Atom.str.inj this).symm hd.ns
      · have hn : n ∈ s.declared := by
          rcases hn with h | h
          · exact h
          · rw [h]
            unfold topNode
            rw [if_neg (hd.root s hs)]
            exact (hd.valid.valid s hs).root
        rcases List.mem_append.1 hn with hn | hn
        · exfalso
          have hL := (d.layer s hs n (List.mem_append_left _ hn) _).1 h
          unfold nodeLayers at hL
          rw [if_pos hn, if_neg (fun e => hd.root s hs (by rw [← e]; exact hn))] at hL
          split at hL <;> exact absurd hL (by decide)
        · obtain ⟨t, ht, rfl⟩ := List.mem_map.1 hn
          obtain ⟨c, hc, _⟩ := (c55_nonterminal_attributes name ns ss hd.valid g' hg s hs t ht).2.1
          exact ⟨c, s, hs, t, ht, rfl, hc⟩
    · rintro ⟨c, s, hs, t, ht, rfl, _⟩
      exact hntL s hs t ht
  · intro p n
    constructor
    · rintro ⟨k, a, h⟩
      obtain ⟨x, hx, h1, h2, _⟩ := d.edges.sound p n a ⟨k, h⟩
      exact ⟨x, hx, h1, h2⟩
    · rintro ⟨x, hx, rfl, rfl⟩
      obtain ⟨a, ⟨k, h⟩, _⟩ := d.edges.complete x hx
      exact ⟨k, a, h⟩

/-- **C78 (markables of a TigerXML file)**.  For a document read from a TigerXML file, `get_potential_markables` returns the IDs of all PPs and of all NPs that do not have a PP as a parent – and nothing else –, if the root of each sentence is
a nonterminal, no terminal has an attribute `cat`, and each nonterminal other than a sentence root is declared before it is mentioned. -/
theorem c78_tiger_markables_partial (name ns : String) (ss : List TigerS) (hd : PhraseDoc ns ss) :
    ∃ g l, tigerRead name ns ss = .ok g ∧ g.getPotentialMarkables = .ok l ∧
      ∀ n, n ∈ l ↔ Phrase ss n "PP" ∨ (Phrase ss n "NP" ∧ ∀ p, FileParent ns ss p n → ¬ Phrase ss p "PP") := by
  obtain ⟨g, e, d, _⟩ := tigerRead_graph (name := name) hd.valid
  obtain ⟨h1, h2, h3⟩ := phrase_facts hd e
  have hc : ∀ n, g.NodeLayer n (.str "tiger:syntax") → ∃ v, g.nodeAttr n "tiger:cat" = some v := by
    intro n hn
    obtain ⟨c, hc⟩ := (h2 n).1 hn
    exact ⟨_, (h1 n c).2 hc⟩
  obtain ⟨l, hl, hm⟩ := c78_markables_partial g d.inv (allLayered_of d.layered) hc
  refine ⟨g, l, e, hl, ?_⟩
  intro n
  rw [hm]
  simp only [h1, h2, h3]
  constructor
  · rintro (⟨h, _⟩ | ⟨h, _, hp⟩)
    · exact .inl h
    · exact .inr ⟨h, hp⟩
  · rintro (h | ⟨h, hp⟩)
    · exact .inl ⟨h, .inl ⟨_, h⟩⟩
    · exact .inr ⟨h, ⟨_, h⟩, hp⟩

/-- **C78 (phrases of a TigerXML file)**.  If the namespace of the document is the default, "tiger", `get_phrases(cat_val=cat)` yields the ID of each nonterminal with this category once, and nothing else (under the same conditions). -/
theorem c78_tiger_phrases_partial (name cat : String) (ss : List TigerS) (hd : PhraseDoc "tiger" ss) :
    ∃ g l, tigerRead name "tiger" ss = .ok g ∧ g.getPhrases none "syntax" "cat" cat = (l, none) ∧ l.Nodup ∧ ∀ n, n ∈ l ↔ Phrase ss n cat := by
  obtain ⟨g, e, d, _⟩ := tigerRead_graph (name := name) hd.valid
  obtain ⟨h1, h2, _⟩ := phrase_facts hd e
  have e1 : "tiger" ++ ":" ++ "syntax" = "tiger:syntax" := by decide
  have e2 : g.ns ++ ":" ++ "cat" = "tiger:cat" := by rw [d.ns]; decide
  obtain ⟨l, hl, nd, hm⟩ := c78_phrases_partial g d.inv (allLayered_of d.layered) none "syntax" "cat" cat "tiger" (.inr ⟨.inl rfl, d.ns.symm⟩) (by
    intro n hn
    rw [e1] at hn
    rw [e2]
    obtain ⟨c, hc⟩ := (h2 n).1 hn
    exact ⟨_, (h1 n c).2 hc⟩)
  refine ⟨g, l, e, hl, nd, ?_⟩
  intro n
  rw [hm, e1, e2, h2]
  have := h1 n cat
  unfold HasCat at this
  rw [this]
  exact ⟨fun h => h.2, fun h => ⟨⟨_, h⟩, h⟩⟩

/-- **C78 (a one-word sentence)**.  If the root of one sentence is a terminal, the virtual root that the reader adds has no category, and `get_potential_markables` raises KeyError for the whole document. -/
theorem c78_tiger_key (name ns : String) (ss : List TigerS) (hd : ValidDoc ns ss) (hr : ∃ s ∈ ss, s.root ∈ s.toks) :
    ∃ g, tigerRead name ns ss = .ok g ∧ g.getPotentialMarkables = .error .key := by
  obtain ⟨g, e, d, _⟩ := tigerRead_graph (name := name) hd
  refine ⟨g, e, c78_markables_key g d.inv (allLayered_of d.layered) (.str (qual "tiger" "VROOT")) ?_ ?_⟩
  · exact (d.vroot hr _).2 (by decide)
  · rw [d.other _ hd.vroot _ (by decide), if_neg]
    rintro ⟨_, h⟩
    exact absurd h (by decide)

/-! ### examples -/

/-- "in dem Haus schläft sie": a PP with an NP, and an NP outside -/
def samplePhrases : TigerS :=
  ⟨[("id", "s1")], [("root", "s1_503")],
    [⟨[("id", "s1_1"), ("word", "In"), ("pos", "APPR")], []⟩, ⟨[("id", "s1_2"), ("word", "dem"), ("pos", "ART")], []⟩, ⟨[("id", "s1_3"), ("word", "Haus"), ("pos", "NN")], []⟩,
     ⟨[("id", "s1_4"), ("word", "schläft"), ("pos", "VVFIN")], []⟩, ⟨[("id", "s1_5"), ("word", "sie"), ("pos", "PPER")], []⟩],
    [⟨[("id", "s1_500"), ("cat", "NP")], [[("idref", "s1_2"), ("label", "NK")], [("idref", "s1_3"), ("label", "NK")]], []⟩,
     ⟨[("id", "s1_501"), ("cat", "PP")], [[("idref", "s1_1"), ("label", "AC")], [("idref", "s1_500"), ("label", "NK")]], []⟩,
     ⟨[("id", "s1_502"), ("cat", "NP")], [[("idref", "s1_5"), ("label", "NK")]], []⟩,
     ⟨[("id", "s1_503"), ("cat", "S")], [[("idref", "s1_501"), ("label", "MO")], [("idref", "s1_4"), ("label", "HD")], [("idref", "s1_502"), ("label", "SB")]], []⟩]⟩

theorem samplePhrases_doc : PhraseDoc "tiger" [samplePhrases] := by
  refine ⟨⟨?_, by decide +kernel, by decide +kernel, by decide +kernel⟩, by decide, by decide, by decide, by decide⟩
  intro s hs
  obtain rfl := List.mem_singleton.1 hs
  refine ⟨by decide, by unfold XmlOk; decide, by unfold XmlOk; decide, by decide, by decide, by decide, ?_, by decide⟩
  intro pre t post h h2 _
  have ht : t ∈ samplePhrases.nts := by rw [h]; simp
  exact h2 ((show ∀ t ∈ samplePhrases.nts, t.secs = [] by decide) t ht)

example : Phrase [samplePhrases] (.str "s1_501") "PP" ∧ Phrase [samplePhrases] (.str "s1_502") "NP" ∧ FileParent "tiger" [samplePhrases] (.str "s1_501") (.str "s1_500") := by
  refine ⟨⟨_, List.mem_singleton.2 rfl, ?_⟩, ⟨_, List.mem_singleton.2 rfl, ?_⟩, ?_⟩
  · decide
  · decide
  · unfold FileParent
    decide +kernel

/-- the hypotheses of the theorems about arbitrary graphs are met by the graph of this file -/
example : ∃ g, tigerRead "f.xml" "tiger" [samplePhrases] = .ok g ∧ Inv g ∧ AllLayered g ∧ (∀ n, g.NodeLayer n (.str "tiger:syntax") → ∃ v, g.nodeAttr n "tiger:cat" = some v) ∧
    g.NodeLayer (.str "s1_500") (.str "tiger:syntax") ∧ g.HasCat (.str "s1_500") "NP" ∧ g.ParentOf (.str "s1_501") (.str "s1_500") ∧ g.HasCat (.str "s1_501") "PP" := by
  obtain ⟨g, e, d, _⟩ := tigerRead_graph (name := "f.xml") samplePhrases_doc.valid
  obtain ⟨h1, h2, h3⟩ := phrase_facts samplePhrases_doc e
  refine ⟨g, e, d.inv, allLayered_of d.layered, ?_, (h2 _).2 ⟨"NP", by unfold Phrase; decide⟩, (h1 _ _).2 (by unfold Phrase; decide), (h3 _ _).2 (by unfold FileParent; decide +kernel), (h1 _ _).2 (by unfold Phrase; decide)⟩
  intro n hn
  obtain ⟨c, hc⟩ := (h2 n).1 hn
  exact ⟨_, (h1 n c).2 hc⟩

/-- the PP is listed twice -/
theorem c78_fails_duplicates : (do let g ← tigerRead "f.xml" "tiger" [samplePhrases]; g.getPotentialMarkables).toOption = some [.str "s1_501", .str "s1_501", .str "s1_502"] ∨
    (do let g ← tigerRead "f.xml" "tiger" [samplePhrases]; g.getPotentialMarkables).toOption = some [.str "s1_501", .str "s1_502", .str "s1_501"] ∨
    (do let g ← tigerRead "f.xml" "tiger" [samplePhrases]; g.getPotentialMarkables).toOption = some [.str "s1_502", .str "s1_501", .str "s1_501"] := by
  decide +kernel

/-- Without the condition on the order of the elements the claim is false: in this file the NP s1_501 has no PP as a parent, but is not listed – its parent S precedes it. -/
theorem c78_fails_forward_reference : Phrase [sampleTiger1] (.str "s1_501") "NP" ∧ (do let g ← tigerRead "f.xml" "tiger" [sampleTiger1]; g.getPotentialMarkables).toOption = some [] ∧
    (do let g ← tigerRead "f.xml" "tiger" [sampleTiger1]; return (g.getPhrases none "syntax" "cat" "NP").1).toOption = some [] := by
  refine ⟨?_, ?_, ?_⟩
  · unfold Phrase; decide
  · decide +kernel
  · decide +kernel

/-- the namespace given to `get_phrases` is used for the layer only: in a document with another namespace, the phrases of a Tiger layer cannot be asked for -/
theorem c78_fails_other_namespace : (do let g ← tigerRead "f.xml" "syntax" [samplePhrases]; return (g.getPhrases (some "tiger") "syntax" "cat" "NP").2).toOption = some (some .key) := by
  decide +kernel

/-- a one-word sentence -/
example : ∃ g, tigerRead "f.xml" "tiger" [sampleTiger1, sampleTiger2] = .ok g ∧ g.getPotentialMarkables = .error .key :=
  c78_tiger_key _ _ _ (sampleTiger_valid _ (.inl rfl)) ⟨sampleTiger2, by simp, by decide⟩

example : ∃ g l, tigerRead "f.xml" "tiger" [samplePhrases] = .ok g ∧ g.getPhrases none "syntax" "cat" "NP" = (l, none) ∧ l.Nodup ∧ ∀ n, n ∈ l ↔ Phrase [samplePhrases] n "NP" :=
  c78_tiger_phrases_partial _ _ _ samplePhrases_doc

end DG
end Dg
