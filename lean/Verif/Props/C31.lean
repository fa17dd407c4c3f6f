import Verif.Lemmas.TreePos
import Verif.Lemmas.Rank
import Verif.Spec.Offsets
import Verif.Lemmas.Edges
import Mathlib.Data.List.Induction
import Batteries.Lean.Except

/-! C31: breadth-first export of dominance trees (sorted_bfs_edges, sorted_bfs_successors). -/

namespace Dg
open Dict
namespace DG

/-- the edges `es` are the breadth-first traversal of the dominance tree below `source`, siblings ordered by the first of the tokens `ts` they cover -/
structure BfsOf (g : DG) (source : NodeId) (ts : List NodeId) (es : List (NodeId × NodeId)) : Prop where
  /-- nobody is reached twice -/
  once : (es.map Prod.snd).Nodup
  /-- exactly the nodes below the source are reached -/
  reached : ∀ n, n ∈ es.map Prod.snd ↔ n ≠ source ∧ g.Covers source n
  /-- exactly the dominance relations between them are listed -/
  edges : ∀ u v, (u, v) ∈ es ↔ v ≠ source ∧ g.Covers source u ∧ g.Dominates u v
  /-- a node is reached before the nodes it dominates -/
  parentsFirst : ∀ pre e post, es = pre ++ e :: post → e.1 = source ∨ e.1 ∈ pre.map Prod.snd
  /-- breadth first: nodes are expanded in the order in which they were reached -/
  breadthFirst : es.Pairwise (fun e e' => (source :: es.map Prod.snd).idxOf e.1 ≤ (source :: es.map Prod.snd).idxOf e'.1)
  /-- siblings are ordered by the first token they cover -/
  siblings : es.Pairwise (fun e e' => e.1 = e'.1 → ∃ i j, g.FirstCovered ts e.2 i ∧ g.FirstCovered ts e'.2 j ∧ i ≤ j)
  /-- there are no cycles below the source -/
  noCycle : ∀ v, v ≠ source → g.Covers source v → ¬ Relation.TransGen g.Dominates v v

/-- **C31 (soundness)**.  On every reachable graph and for every source: if the generator `sorted_bfs_edges(g, source)` is exhausted without an exception, then the
edges it yielded are the breadth-first traversal of all dominance relations below the source; every node below the source is the target of exactly one edge, the source
of none, and siblings are ordered by the first token they cover. -/
theorem c31_sorted_bfs_edges (g : DG) (hr : Reachable g) (fuel : Nat) (source : NodeId) (es : List (NodeId × NodeId))
    (h : g.sortedBfsEdges fuel source = (es, none)) : ∃ ts, g.TokensBelow source ts ∧ g.BfsOf source ts es := by
  have wf := hr.inv.wf
  unfold sortedBfsEdges at h
  cases hp : g.horizontalPositions fuel source with
  | error e => rw [hp] at h; simp at h
  | ok xpos =>
    rw [hp] at h
    simp only at h
    cases hc : g.sortedChildren xpos source with
    | error e => rw [hc] at h; simp at h
    | ok cs =>
      rw [hc] at h
      simp only at h
      obtain ⟨ts, hts, hcl, hpos⟩ := horizontalPositions_spec wf hp
      refine ⟨ts, hts, ?_⟩
      have pf := bfsLoop_parentsFirst (g.sortedChildren xpos) (keys g.nodes) [(source, cs)] [source] es (by rw [h])
      obtain ⟨r1, r2, r3, r4, bs, r5, r6⟩ := bfsLoop_run _ _ _ _ es h
      simp only [List.map_cons, List.map_nil, List.cons_append, List.nil_append, List.mem_singleton] at r5 r6 r2 pf
      have hsc := sortedChildren_spec hr hc
      -- children of every node of source :: targets
      have hch : ∀ n ∈ source :: es.map Prod.snd, ∃ gs, g.sortedChildren xpos n = .ok gs ∧ ∀ c ∈ gs, c = source ∨ c ∈ es.map Prod.snd := by
        intro n hn
        rcases List.mem_cons.1 hn with rfl | hn
        · exact ⟨cs, hc, fun c hc' => by simpa using r3 n cs (by simp) c hc'⟩
        · obtain ⟨gs, h1, h2⟩ := r4 n hn
          exact ⟨gs, h1, fun c hc' => by simpa using h2 c hc'⟩
      -- blocks
      have hL : (source :: es.map Prod.snd).Nodup := List.nodup_cons.2 ⟨fun hm => r2 source hm (by simp), r1⟩
      have hblock : List.Forall₂ (fun p b => ∃ cs, g.sortedChildren xpos p = .ok cs ∧ List.Sublist b cs) (source :: es.map Prod.snd) bs := by
        cases r5 with
        | cons h1 h2 =>
          obtain ⟨cs', e, hs⟩ := h1
          simp only [Except.ok.injEq] at e
          subst e
          refine .cons ⟨cs, hc, hs⟩ ?_
          rw [List.forall₂_map_left_iff] at h2
          exact h2
      have hdom : ∀ e ∈ es, g.Dominates e.1 e.2 := by
        rw [r6]
        refine blockEdges_forall₂ ?_
        refine hblock.imp ?_
        rintro p b ⟨cs', h1, h2⟩ c hc'
        exact ((sortedChildren_spec hr h1).2.2.1 c).1 (h2.subset hc')
      have hparent : ∀ e ∈ es, e.1 ∈ source :: es.map Prod.snd := by
        intro e he
        rw [r6] at he
        exact (mem_blockEdges he).1
      have hcovd : ∀ n ∈ es.map Prod.snd, g.Covers source n := by
        -- by position in es
        have key : ∀ pre post, es = pre ++ post → ∀ n ∈ pre.map Prod.snd, g.Covers source n := by
          intro pre
          induction pre using List.reverseRecOn with
          | nil => simp
          | append_singleton pre e ih =>
            intro post he n hn
            rw [List.append_assoc] at he
            rw [List.map_append, List.mem_append] at hn
            rcases hn with hn | hn
            · exact ih _ he n hn
            · simp at hn
              subst hn
              have hd := hdom e (by rw [he]; simp)
              rcases pf pre e post he with h' | h'
              · rw [h'] at hd; exact .single hd
              · exact (ih _ he _ h').tail hd
        exact key es [] (by simp)
      have hcomplete : ∀ n, g.Covers source n → n = source ∨ n ∈ es.map Prod.snd := by
        intro n hn
        induction hn with
        | refl => exact .inl rfl
        | tail _ hd ih =>
          rename_i b c _
          have hb : b ∈ source :: es.map Prod.snd := by
            rcases ih with h' | h'
            · exact h' ▸ List.mem_cons_self
            · exact List.mem_cons_of_mem _ h'
          obtain ⟨gs, h1, h2⟩ := hch b hb
          exact h2 c (((sortedChildren_spec hr h1).2.2.1 c).2 hd)
      -- positions and parents of targets
      have hpost : ∀ u v, u ∈ source :: es.map Prod.snd → g.Dominates u v → v ≠ source → ∃ i, find xpos v = some i ∧ g.FirstCovered ts v i := by
        intro u v hu hd hv
        obtain ⟨gs, h1, _⟩ := hch u hu
        obtain ⟨i, hi⟩ := (sortedChildren_spec hr h1).2.2.2.1 v (((sortedChildren_spec hr h1).2.2.1 v).2 hd)
        exact ⟨i, hi, ((hpos v hv i).1 hi).2⟩
      have hmem : ∀ n, n ∈ es.map Prod.snd ↔ n ≠ source ∧ g.Covers source n := by
        intro n
        constructor
        · exact fun hn => ⟨fun h' => r2 n hn h', hcovd n hn⟩
        · rintro ⟨h1, h2⟩; exact (hcomplete n h2).resolve_left h1
      have hin : ∀ u, g.Covers source u → u ∈ source :: es.map Prod.snd := by
        intro u hu
        rcases hcomplete u hu with h' | h'
        · exact h' ▸ List.mem_cons_self
        · exact List.mem_cons_of_mem _ h'
      refine ⟨r1, hmem, ?_, fun pre e post he => pf pre e post he, ?_, ?_, ?_⟩
      · intro u v
        constructor
        · intro huv
          have hv := (hmem v).1 (List.mem_map_of_mem (f := Prod.snd) huv)
          refine ⟨hv.1, ?_, hdom _ huv⟩
          rcases List.mem_cons.1 (hparent _ huv) with h' | h'
          · rw [show u = source from h']; exact .refl
          · exact hcovd u h'
        · rintro ⟨hv, hu, hd⟩
          have hvt : v ∈ es.map Prod.snd := (hmem v).2 ⟨hv, hu.tail hd⟩
          obtain ⟨⟨u', v'⟩, he, rfl⟩ := List.mem_map.1 hvt
          obtain ⟨i, _, ⟨⟨t, ht, hcov⟩, _⟩⟩ := hpost u _ (hin u hu) hd hv
          obtain ⟨⟨ps, hps⟩, _⟩ := hcl t (List.mem_of_getElem? ht) _ hcov
          obtain ⟨hlen, hpm⟩ := getParents_ok wf hps
          have e1 := (hpm u).2 hd
          have e2 := (hpm u').2 (hdom _ he)
          match ps, hlen, e1, e2 with
          | [q], _, e1, e2 =>
            simp at e1 e2
            rw [e1, ← e2]; exact he
      · have := blockEdges_order (bs := bs) hL
        rw [← r6] at this
        exact this
      · have hs : es.Pairwise (fun e e' => e.1 = e'.1 → posLe xpos e.2 e'.2 = true) := by
          have := blockEdges_siblings (Q := fun a b => posLe xpos a b = true) hL (bs := bs) (by
            intro b hb
            obtain ⟨p, _, cs', h1, h2⟩ := forall₂_mem_right hblock hb
            exact (sortedChildren_spec hr h1).2.2.2.2.sublist h2)
          rw [← r6] at this
          exact this
        refine (List.Pairwise.and_mem.1 hs).imp ?_
        rintro e e' ⟨h1, h2, h3⟩ heq
        have hle := h3 heq
        have n1 := (hmem e.2).1 (List.mem_map_of_mem (f := Prod.snd) h1)
        have n2 := (hmem e'.2).1 (List.mem_map_of_mem (f := Prod.snd) h2)
        obtain ⟨i, hi, fi⟩ := hpost _ _ (hparent e h1) (hdom e h1) n1.1
        obtain ⟨j, hj, fj⟩ := hpost _ _ (hparent e' h2) (hdom e' h2) n2.1
        refine ⟨i, j, fi, fj, ?_⟩
        unfold posLe at hle
        rw [hi, hj] at hle
        simpa using hle
      · intro v hv hc
        obtain ⟨⟨u, v'⟩, he, rfl⟩ := List.mem_map.1 ((hmem v).2 ⟨hv, hc⟩)
        obtain ⟨i, _, ⟨⟨t, ht, hcov⟩, _⟩⟩ := hpost u _ (hparent _ he) (hdom _ he) hv
        exact (hcl t (List.mem_of_getElem? ht) _ hcov).2

/-- sample: a sentence `s` with a verb phrase `vp` over token `t1`, added before the noun phrase `np` over token `t0` -/
def bfsSample : DG := (DG.init "" "a" (some (.str "r"))).run
  [.addNode (.str "t0") (.atom .none) .none [("a:token", .atom (.str "she"))], .addNode (.str "t1") (.atom .none) .none [("a:token", .atom (.str "(sings)"))],
   .setTokens [.str "t0", .str "t1"],
   .addNode (.str "s") (.atom .none) .none [("label", .atom (.str "S")), ("tokens", .list [.str "t0", .str "t1"])],
   .addNode (.str "np") (.atom .none) .none [("label", .atom (.str "NP"))], .addNode (.str "vp") (.atom .none) .none [("label", .atom (.str "VP"))],
   .addEdge (.str "s") (.str "vp") (.atom .none) none .none [("edge_type", .atom (.str "dominates"))],
   .addEdge (.str "s") (.str "np") (.atom .none) none .none [("edge_type", .atom (.str "dominates"))],
   .addEdge (.str "vp") (.str "t1") (.atom .none) none .none [("edge_type", .atom (.str "dominates"))],
   .addEdge (.str "np") (.str "t0") (.atom .none) none .none [("edge_type", .atom (.str "dominates"))],
   .addEdge (.str "t1") (.str "np") (.atom .none) none .none [("edge_type", .atom (.str "points_to"))],
   .setSentences [.str "s"]]

theorem bfsSample_reachable : Reachable bfsSample := ⟨"", "a", some (.str "r"), _, by decide, rfl⟩

theorem bfsSample_edges : bfsSample.sortedBfsEdges 9 (.str "s") =
    ([(.str "s", .str "np"), (.str "s", .str "vp"), (.str "np", .str "t0"), (.str "vp", .str "t1")], none) := by
  have hx : bfsSample.horizontalPositions 9 (.str "s") = .ok [(.str "s", 0), (.str "t0", 0), (.str "np", 0), (.str "t1", 1), (.str "vp", 1)] := by decide +kernel
  unfold sortedBfsEdges
  rw [hx]
  generalize hX : ([(.str "s", 0), (.str "t0", 0), (.str "np", 0), (.str "t1", 1), (.str "vp", 1)] : Dict NodeId Nat) = X
  have c1 : bfsSample.sortedChildren X (.str "s") = .ok [.str "np", .str "vp"] := by subst hX; decide +kernel
  have c2 : bfsSample.sortedChildren X (.str "np") = .ok [.str "t0"] := by subst hX; decide +kernel
  have c3 : bfsSample.sortedChildren X (.str "vp") = .ok [.str "t1"] := by subst hX; decide +kernel
  have c4 : bfsSample.sortedChildren X (.str "t0") = .ok [] := by subst hX; decide +kernel
  have c5 : bfsSample.sortedChildren X (.str "t1") = .ok [] := by subst hX; decide +kernel
  have k : keys bfsSample.nodes = [.str "r", .str "t0", .str "t1", .str "s", .str "np", .str "vp"] := by decide +kernel
  rw [k]
  simp [c1, c2, c3, c4, c5, bfsLoop]

/-- the hypotheses of c31_sorted_bfs_edges can be met -/
example : Reachable bfsSample ∧ bfsSample.sortedBfsEdges 9 (.str "s") =
    ([(.str "s", .str "np"), (.str "s", .str "vp"), (.str "np", .str "t0"), (.str "vp", .str "t1")], none) := ⟨bfsSample_reachable, bfsSample_edges⟩

/-- every node is dominated at most once -/
def SingleParents (g : DG) : Prop := ∀ v u k u' k', g.DominanceEdge u v k → g.DominanceEdge u' v k' → u = u' ∧ k = k'

theorem getParents_total {g : DG} (wf : WF g) (ht : g.Typed) (hs : g.SingleParents) {n : NodeId} (hn : g.HasNode n) : ∃ ps, g.getParents n = .ok ps := by
  unfold getParents
  rw [if_pos ((has_iff _ _).2 hn)]
  obtain ⟨ps, hps⟩ := dominatingSources_total (es := g.inEdges n) (by
    rintro ⟨u, v, k, a⟩ he
    exact ht u n k a ((mem_inEdges wf _ _ _ _ _).1 he).2)
  rw [hps]
  simp only [bind, Except.bind]
  have hlen : ps.length ≤ 1 := by
    rw [dominatingSources_ok hps, List.length_map]
    have hnd : ((g.inEdges n).map Edge.triple).Nodup := (edges_triple_nodup wf).sublist (List.filter_sublist.map _)
    generalize hF : (g.inEdges n).filter (fun e => decide (find e.2.2.2 "edge_type" = some (.atom (.str "dominates")))) = F
    have hsub : F.Sublist (g.inEdges n) := hF ▸ List.filter_sublist
    have hnd' : (F.map Edge.triple).Nodup := hnd.sublist (hsub.map _)
    have hall : ∀ e ∈ F, e.2.1 = n ∧ g.DominanceEdge e.1 n e.2.2.1 := by
      rintro ⟨u, v, k, a⟩ he
      rw [← hF, List.mem_filter] at he
      obtain ⟨h1, h2⟩ := he
      obtain ⟨h3, h4⟩ := (mem_inEdges wf _ _ _ _ _).1 h1
      exact ⟨h3, dominanceEdge_iff.2 ⟨a, h4, by simpa using h2⟩⟩
    match F, hnd', hall with
    | [], _, _ => simp
    | [_], _, _ => simp
    | e :: e' :: F', hnd', hall =>
      exfalso
      have h1 := hall e (by simp)
      have h2 := hall e' (by simp)
      have h3 := hs n _ _ _ _ h1.2 h2.2
      simp only [List.map_cons, List.nodup_cons, List.mem_cons, not_or] at hnd'
      apply hnd'.1.1
      simp [Edge.triple, h3.1, h3.2, h1.1, h2.1]
  rw [if_neg (by omega)]
  exact ⟨ps, rfl⟩

theorem dominates_ends {g : DG} (wf : WF g) {u v : NodeId} (h : g.Dominates u v) : g.HasNode u ∧ g.HasNode v := by
  obtain ⟨k, hk⟩ := h
  obtain ⟨a, ha, _⟩ := dominanceEdge_iff.1 hk
  exact edge_ends wf ha

theorem acyclic_flip {R : NodeId → NodeId → Prop} (h : Acyclic R) : Acyclic (fun a b => R b a) := by
  intro x hx
  have := Relation.transGen_swap.1 hx
  exact h x this

theorem climb_total {g : DG} (wf : WF g) (ht : g.Typed) (hs : g.SingleParents) (hac : Acyclic g.Dominates) {i : Nat} {fuel : Nat} : ∀ {n : NodeId} {path : Dict NodeId Nat},
    g.HasNode n → relRank (fun a b => g.Dominates b a) (keys g.nodes) n < fuel → ∃ path', g.climb i fuel n path = .ok path' := by
  induction fuel with
  | zero => intro n path _ h; omega
  | succ fuel ih =>
    intro n path hn hf
    obtain ⟨ps, hps⟩ := getParents_total wf ht hs hn
    rw [climb, hps]
    simp only [bind, Except.bind]
    cases ps with
    | nil => exact ⟨path, rfl⟩
    | cons p ps =>
      have hd := ((getParents_ok wf hps).2 p).1 (by simp)
      have hp := (dominates_ends wf hd).1
      have := relRank_lt (l := keys g.nodes) (acyclic_flip hac) (u := n) (v := p) hd hp
      exact ih hp (by omega)

theorem climbAll_total {g : DG} (wf : WF g) (ht : g.Typed) (hs : g.SingleParents) (hac : Acyclic g.Dominates) {fuel : Nat} (hfuel : (keys g.nodes).length < fuel) {ts : List NodeId} :
    ∀ {i : Nat} {path : Dict NodeId Nat}, (∀ t ∈ ts, g.HasNode t) → ∃ path', g.climbAll fuel i ts path = .ok path' := by
  induction ts with
  | nil => intro i path _; exact ⟨path, rfl⟩
  | cons t ts ih =>
    intro i path h
    obtain ⟨p1, h1⟩ := climb_total (i := i) (path := path) wf ht hs hac (h t (by simp)) (Nat.lt_of_le_of_lt (relRank_le _ _ _) hfuel)
    rw [climbAll, h1]
    exact ih (fun t ht => h t (List.mem_cons_of_mem _ ht))

theorem firstCovered_exists {g : DG} {ts : List NodeId} {m : NodeId} (h : ∃ t ∈ ts, g.Covers m t) : ∃ i, g.FirstCovered ts m i := by
  induction ts with
  | nil => simp at h
  | cons t ts ih =>
    by_cases hc : g.Covers m t
    · exact ⟨0, firstCovered_cons.2 (.inl ⟨rfl, hc⟩)⟩
    · obtain ⟨t', ht', hc'⟩ := h
      rcases List.mem_cons.1 ht' with rfl | ht'
      · exact absurd hc' hc
      · obtain ⟨i, hi⟩ := ih ⟨t', ht', hc'⟩
        exact ⟨i + 1, firstCovered_cons.2 (.inr ⟨hc, i, rfl, hi⟩)⟩

/-- **C31 (totality)**.  If dominance is a forest (no cycle, no node dominated twice), all edges are typed, the tokens exist and each node below the source covers one of them, then
`sorted_bfs_edges(g, source)` ends without an exception. -/
theorem c31_sorted_bfs_edges_total_partial (g : DG) (hr : Reachable g) (ht : g.Typed) (hs : g.SingleParents) (hac : Acyclic g.Dominates) (source : NodeId) (hsrc : g.HasNode source)
    (ts : List NodeId) (hts : g.TokensBelow source ts) (hnode : ∀ t ∈ ts, g.HasNode t) (hcov : ∀ n, n ≠ source → g.Covers source n → ∃ t ∈ ts, g.Covers n t)
    (fuel : Nat) (hfuel : (keys g.nodes).length < fuel) : ∃ es, g.sortedBfsEdges fuel source = (es, none) := by
  have wf := hr.inv.wf
  have hpos : ∃ xpos, g.horizontalPositions fuel source = .ok xpos := by
    unfold horizontalPositions
    unfold TokensBelow at hts
    by_cases h1 : source = g.root
    · rw [if_pos (.inl h1)] at hts
      rw [if_pos h1, ← hts]
      exact climbAll_total wf ht hs hac hfuel hnode
    · rw [if_neg h1]
      obtain ⟨a, ha⟩ := hasNode_iff'.1 hsrc
      have ha' : find g.nodes source = some a := ha
      simp only [ha']
      cases hf : find a "tokens" with
      | none =>
        rw [if_pos (.inr (by simp [nodeAttr, ha, hf]))] at hts
        simp only
        rw [← hts]
        exact climbAll_total wf ht hs hac hfuel hnode
      | some v =>
        have e : g.nodeAttr source "tokens" = some v := by simp [nodeAttr, ha, hf]
        rw [if_neg (by simp [h1, e]), e] at hts
        simp only [Option.some.injEq] at hts
        subst hts
        simp only [tokenIds, mapE_atomId_map, bind, Except.bind]
        exact climbAll_total wf ht hs hac hfuel hnode
  obtain ⟨xpos, hx⟩ := hpos
  obtain ⟨ts', hts', _, hpos⟩ := horizontalPositions_spec wf hx
  obtain rfl := tokensBelow_unique hts hts'
  have hne : ∀ n m, g.Covers source n → g.Dominates n m → m ≠ source := by
    rintro n m hn hd rfl
    exact hac m (Relation.TransGen.tail' hn hd)
  have hch : ∀ n, g.Covers source n → ∃ gs, g.sortedChildren xpos n = .ok gs ∧ ∀ c ∈ gs, g.Dominates n c := by
    intro n hn
    have hnn : g.HasNode n := by
      rcases Relation.ReflTransGen.cases_tail hn with e | ⟨b, _, hb⟩
      · exact e ▸ hsrc
      · exact (dominates_ends wf hb).2
    obtain ⟨cs, h1, _, h3⟩ := getChildNodes_spec hr hnn
    unfold sortedChildren
    simp only [h1, Gen.all, bind, Except.bind]
    rw [if_pos]
    · exact ⟨_, rfl, fun c hc => (h3 c).1 ((mem_pySorted _ _).1 hc)⟩
    · rw [List.all_eq_true]
      intro c hc
      have hd := (h3 c).1 hc
      have hcs := hne n c hn hd
      obtain ⟨i, hi⟩ := firstCovered_exists (hcov c hcs (hn.tail hd))
      exact (has_iff _ _).2 ((mem_keys_iff _ _).2 ⟨i, (hpos c hcs i).2 ⟨⟨n, hd⟩, hi⟩⟩)
  obtain ⟨cs, hcs, hcd⟩ := hch source .refl
  unfold sortedBfsEdges
  simp only [hx, hcs]
  apply bfsLoop_total _ _ (fun n => g.HasNode n ∧ g.Covers source n)
  · rintro n ⟨h1, h2⟩
    obtain ⟨gs, hg, hd⟩ := hch n h2
    exact ⟨h1, gs, hg, fun c hc => ⟨(dominates_ends wf (hd c hc)).2, h2.tail (hd c hc)⟩⟩
  · intro p hp c hc
    simp at hp
    subst hp
    exact ⟨(dominates_ends wf (hcd c hc)).2, .single (hcd c hc)⟩

theorem bfsSample_dominates {u v : NodeId} {k : Key} (h : bfsSample.DominanceEdge u v k) :
    (u, v, k) ∈ [(NodeId.str "s", NodeId.str "vp", NodeId.int 0), (.str "s", .str "np", .int 0), (.str "vp", .str "t1", .int 0), (.str "np", .str "t0", .int 0)] := by
  obtain ⟨a, h1, h2⟩ := dominanceEdge_iff.1 h
  have hm := (mem_edges_iff bfsSample_reachable.inv.wf _ _ _ _).2 h1
  have key : ∀ e ∈ bfsSample.edges, find e.2.2.2 "edge_type" = some (.atom (.str "dominates")) → (e.1, e.2.1, e.2.2.1) ∈
      [(NodeId.str "s", NodeId.str "vp", NodeId.int 0), (.str "s", .str "np", .int 0), (.str "vp", .str "t1", .int 0), (.str "np", .str "t0", .int 0)] := by decide +kernel
  exact key _ hm h2

/-- height of a node of the sample -/
def bfsSampleHeight : NodeId → Nat
  | .str "s" => 2
  | .str "np" => 1
  | .str "vp" => 1
  | _ => 0

/-- the hypotheses of c31_sorted_bfs_edges_total_partial can be met -/
example : Reachable bfsSample ∧ bfsSample.Typed ∧ bfsSample.SingleParents ∧ Acyclic bfsSample.Dominates ∧ bfsSample.HasNode (.str "s") ∧
    bfsSample.TokensBelow (.str "s") [.str "t0", .str "t1"] ∧ (∀ t ∈ [NodeId.str "t0", .str "t1"], bfsSample.HasNode t) ∧
    (∀ n, n ≠ .str "s" → bfsSample.Covers (.str "s") n → ∃ t ∈ [NodeId.str "t0", .str "t1"], bfsSample.Covers n t) ∧ (keys bfsSample.nodes).length < 7 := by
  have wf := bfsSample_reachable.inv.wf
  have dom : ∀ {u v}, bfsSample.Dominates u v → (u, v) ∈ [(NodeId.str "s", NodeId.str "vp"), (.str "s", .str "np"), (.str "vp", .str "t1"), (.str "np", .str "t0")] := by
    rintro u v ⟨k, h⟩
    have := bfsSample_dominates h
    simp only [List.mem_cons, Prod.mk.injEq, List.not_mem_nil, or_false] at this ⊢
    rcases this with h | h | h | h <;> simp [h]
  have mk : ∀ u v, bfsSample.edgeAttr u v (.int 0) "edge_type" = some (.atom (.str "dominates")) → bfsSample.Dominates u v := fun u v h => ⟨_, h⟩
  have hdec : ∀ {u v}, bfsSample.Dominates u v → bfsSampleHeight v < bfsSampleHeight u := by
    intro u v h
    have := dom h
    simp only [List.mem_cons, Prod.mk.injEq, List.not_mem_nil, or_false] at this
    rcases this with ⟨rfl, rfl⟩ | ⟨rfl, rfl⟩ | ⟨rfl, rfl⟩ | ⟨rfl, rfl⟩ <;> decide
  have htr : ∀ {u v}, Relation.TransGen bfsSample.Dominates u v → bfsSampleHeight v < bfsSampleHeight u := by
    intro u v h
    induction h with
    | single h => exact hdec h
    | tail _ h ih => exact Nat.lt_trans (hdec h) ih
  refine ⟨bfsSample_reachable, ?_, ?_, fun x hx => Nat.lt_irrefl _ (htr hx), by decide +kernel, by unfold TokensBelow; decide +kernel, by decide +kernel, ?_, by decide +kernel⟩
  · intro u v k a h
    have key : ∀ e ∈ bfsSample.edges, (find e.2.2.2 "edge_type").isSome := by decide +kernel
    exact Option.isSome_iff_exists.1 (key _ ((mem_edges_iff wf _ _ _ _).2 h))
  · intro v u k u' k' h1 h2
    have h1 := bfsSample_dominates h1
    have h2 := bfsSample_dominates h2
    simp only [List.mem_cons, Prod.mk.injEq, List.not_mem_nil, or_false] at h1 h2
    rcases h1 with ⟨rfl, rfl, rfl⟩ | ⟨rfl, rfl, rfl⟩ | ⟨rfl, rfl, rfl⟩ | ⟨rfl, rfl, rfl⟩ <;> simp at h2 <;> simp [h2]
  · intro n hn hc
    rcases Relation.ReflTransGen.cases_tail hc with e | ⟨b, _, hb⟩
    · exact absurd e hn
    · have := dom hb
      simp only [List.mem_cons, Prod.mk.injEq, List.not_mem_nil, or_false] at this
      rcases this with ⟨rfl, rfl⟩ | ⟨rfl, rfl⟩ | ⟨rfl, rfl⟩ | ⟨rfl, rfl⟩
      · exact ⟨.str "t1", by simp, .single (mk _ _ (by decide +kernel))⟩
      · exact ⟨.str "t0", by simp, .single (mk _ _ (by decide +kernel))⟩
      · exact ⟨.str "t1", by simp, .refl⟩
      · exact ⟨.str "t0", by simp, .refl⟩

/-- a sentence that dominates a node without tokens (e.g. a trace) -/
def bfsTrace : DG := (DG.init "" "a" (some (.str "r"))).run
  [.addNode (.str "t0") (.atom .none) .none [("a:token", .atom (.str "she"))], .setTokens [.str "t0"],
   .addEdge (.str "r") (.str "t0") (.atom .none) none .none [("edge_type", .atom (.str "dominates"))],
   .addEdge (.str "r") (.str "trace") (.atom .none) none .none [("edge_type", .atom (.str "dominates"))]]

/-- the same dominance relation, stored twice under different keys -/
def bfsTwice : DG := (DG.init "" "a" (some (.str "r"))).run
  [.addNode (.str "t0") (.atom .none) .none [("a:token", .atom (.str "she"))], .setTokens [.str "t0"],
   .addEdge (.str "r") (.str "t0") (.atom .none) none .none [("edge_type", .atom (.str "dominates"))],
   .addEdge (.str "r") (.str "t0") (.atom .none) none .none [("edge_type", .atom (.str "dominates"))]]

/-- **C31 fails** for a dominated node that covers no token: there is no position to sort by, the traversal ends with a KeyError before any edge. -/
theorem c31_fails_uncovered_node : bfsTrace.HasNode (.str "trace") ∧ bfsTrace.Dominates (.str "r") (.str "trace") ∧ bfsTrace.Dominates (.str "r") (.str "t0") ∧
    ∀ fuel, bfsTrace.sortedBfsEdges (fuel + 2) (.str "r") = ([], some .key) := by
  refine ⟨by decide +kernel, ⟨.int 0, by unfold DominanceEdge; decide +kernel⟩, ⟨.int 0, by unfold DominanceEdge; decide +kernel⟩, fun fuel => ?_⟩
  have p1 : bfsTrace.getParents (.str "t0") = .ok [.str "r"] := by decide +kernel
  have p2 : bfsTrace.getParents (.str "r") = .ok [] := by decide +kernel
  have hx : bfsTrace.horizontalPositions (fuel + 2) (.str "r") = .ok [(.str "t0", 0)] := by
    have h1 : (NodeId.str "r") = bfsTrace.root := by decide +kernel
    have h2 : bfsTrace.tokens = [.str "t0"] := by decide +kernel
    unfold horizontalPositions
    rw [if_pos h1, h2]
    simp [climbAll, climb, p1, p2, bind, Except.bind, Dict.has, Dict.put]
  have hc : bfsTrace.sortedChildren [(.str "t0", 0)] (.str "r") = .error .key := by decide +kernel
  simp [sortedBfsEdges, hx, hc]

/-- **C31 fails** for parallel dominance edges: the strict parent check takes them for two parents. -/
theorem c31_fails_parallel_edges : (∀ u, bfsTwice.Dominates u (.str "t0") → u = .str "r") ∧
    ∀ fuel, bfsTwice.sortedBfsEdges (fuel + 1) (.str "r") = ([], some .value) := by
  refine ⟨?_, fun fuel => ?_⟩
  · rintro u ⟨k, h⟩
    obtain ⟨a, h1, _⟩ := dominanceEdge_iff.1 h
    have hr : Reachable bfsTwice := ⟨"", "a", some (.str "r"), _, by decide, rfl⟩
    have hm := (mem_edges_iff hr.inv.wf _ _ _ _).2 h1
    have key : ∀ e ∈ bfsTwice.edges, e.1 = .str "r" := by decide +kernel
    exact key _ hm
  · have p1 : bfsTwice.getParents (.str "t0") = .error .value := by decide +kernel
    have hx : bfsTwice.horizontalPositions (fuel + 1) (.str "r") = .error .value := by
      have h1 : (NodeId.str "r") = bfsTwice.root := by decide +kernel
      have h2 : bfsTwice.tokens = [.str "t0"] := by decide +kernel
      unfold horizontalPositions
      rw [if_pos h1, h2]
      simp [climbAll, climb, p1, bind, Except.bind]
    simp [sortedBfsEdges, hx]

theorem find_collectSuccessors (es : List (NodeId × NodeId)) (n : NodeId) (d : Dict NodeId (List NodeId)) :
    find (es.foldl (fun d e => put d e.1 ((find d e.1).getD [] ++ [e.2])) d) n =
      if (es.filter (fun e => decide (e.1 = n))) = [] then find d n
      else some ((find d n).getD [] ++ (es.filter (fun e => decide (e.1 = n))).map Prod.snd) := by
  induction es generalizing d with
  | nil => simp
  | cons e es ih =>
    rw [List.foldl_cons, ih]
    by_cases he : e.1 = n
    · subst he
      by_cases hn : es.filter (fun e' => decide (e'.1 = e.1)) = []
      · simp [hn]
      · simp [hn]
    · by_cases hn : es.filter (fun e' => decide (e'.1 = n)) = []
      · simp [hn, he, find_put]
      · simp [hn, he, find_put]

/-- the dict `d` maps exactly the nodes below `source` that dominate others to the nodes they dominate, each once, ordered by the first of the tokens `ts` they cover -/
structure SuccessorsOf (g : DG) (source : NodeId) (ts : List NodeId) (d : Dict NodeId (List NodeId)) : Prop where
  keys : ∀ n, n ∈ Dict.keys d ↔ g.Covers source n ∧ ∃ c, c ≠ source ∧ g.Dominates n c
  once : ∀ n cs, find d n = some cs → cs.Nodup
  children : ∀ n cs, find d n = some cs → ∀ c, c ∈ cs ↔ c ≠ source ∧ g.Dominates n c
  ordered : ∀ n cs, find d n = some cs → cs.Pairwise (fun c c' => ∃ i j, g.FirstCovered ts c i ∧ g.FirstCovered ts c' j ∧ i ≤ j)
  /-- no node has two parents -/
  tree : ∀ n cs n' cs' c, find d n = some cs → find d n' = some cs' → c ∈ cs → c ∈ cs' → n = n'
  /-- there are no cycles below the source -/
  noCycle : ∀ v, v ≠ source → g.Covers source v → ¬ Relation.TransGen g.Dominates v v

/-- **C31 (successors)**.  `sorted_bfs_successors(g, source)`, if it returns, maps exactly the dominating nodes below the source to the nodes they dominate. -/
theorem c31_sorted_bfs_successors (g : DG) (hr : Reachable g) (fuel : Nat) (source : NodeId) (d : Dict NodeId (List NodeId))
    (h : g.sortedBfsSuccessors fuel source = .ok d) : ∃ ts, g.TokensBelow source ts ∧ g.SuccessorsOf source ts d := by
  unfold sortedBfsSuccessors at h
  cases he : g.sortedBfsEdges fuel source with
  | mk es o =>
    rw [he] at h
    cases o with
    | some e => simp [Gen.all, bind, Except.bind] at h
    | none =>
      simp only [Gen.all, bind, Except.bind, Except.ok.injEq] at h
      obtain ⟨ts, hts, hb⟩ := c31_sorted_bfs_edges g hr fuel source es he
      refine ⟨ts, hts, ?_⟩
      have hfind : ∀ n, find d n = if (es.filter (fun e => decide (e.1 = n))) = [] then none else some ((es.filter (fun e => decide (e.1 = n))).map Prod.snd) := by
        intro n
        rw [← h, collectSuccessors, find_collectSuccessors]
        simp [find]
      have hsome : ∀ n cs, find d n = some cs → cs = (es.filter (fun e => decide (e.1 = n))).map Prod.snd ∧ cs ≠ [] := by
        intro n cs hc
        rw [hfind] at hc
        split at hc
        · simp at hc
        · rename_i hne
          simp only [Option.some.injEq] at hc
          exact ⟨hc.symm, fun h => hne (by simpa [h] using hc)⟩
      have hmem : ∀ n c, c ∈ (es.filter (fun e => decide (e.1 = n))).map Prod.snd ↔ (n, c) ∈ es := by
        intro n c
        simp only [List.mem_map, List.mem_filter, decide_eq_true_eq]
        constructor
        · rintro ⟨⟨a, b⟩, ⟨h1, rfl⟩, rfl⟩; exact h1
        · intro h; exact ⟨(n, c), ⟨h, rfl⟩, rfl⟩
      have hcov : ∀ n cs, find d n = some cs → g.Covers source n := by
        intro n cs hc
        obtain ⟨rfl, hne⟩ := hsome n cs hc
        obtain ⟨c, hc'⟩ := List.exists_mem_of_ne_nil _ hne
        exact ((hb.edges n c).1 ((hmem n c).1 hc')).2.1
      refine ⟨?_, ?_, ?_, ?_, ?_, hb.noCycle⟩
      · intro n
        rw [mem_keys_iff]
        constructor
        · rintro ⟨cs, hc⟩
          obtain ⟨rfl, hne⟩ := hsome n cs hc
          obtain ⟨c, hc'⟩ := List.exists_mem_of_ne_nil _ hne
          have := (hb.edges n c).1 ((hmem n c).1 hc')
          exact ⟨this.2.1, c, this.1, this.2.2⟩
        · rintro ⟨h1, c, h2, h3⟩
          have hm := (hmem n c).2 ((hb.edges n c).2 ⟨h2, h1, h3⟩)
          rw [hfind, if_neg]
          · exact ⟨_, rfl⟩
          · intro hn; rw [hn] at hm; simp at hm
      · intro n cs hc
        obtain ⟨rfl, _⟩ := hsome n cs hc
        exact hb.once.sublist (List.filter_sublist.map _)
      · intro n cs hc c
        have h1 := hcov n cs hc
        obtain ⟨rfl, _⟩ := hsome n cs hc
        rw [hmem, hb.edges]
        simp [h1]
      · intro n cs hc
        obtain ⟨rfl, _⟩ := hsome n cs hc
        rw [List.pairwise_map]
        have := (List.Pairwise.and_mem.1 (hb.siblings.sublist (List.filter_sublist (p := fun e => decide (e.1 = n)))))
        refine this.imp ?_
        rintro e e' ⟨h1, h2, h3⟩
        rw [List.mem_filter] at h1 h2
        exact h3 ((of_decide_eq_true h1.2).trans (of_decide_eq_true h2.2).symm)
      · intro n cs n' cs' c h1 h2 h3 h4
        obtain ⟨rfl, _⟩ := hsome n cs h1
        obtain ⟨rfl, _⟩ := hsome n' cs' h2
        have e1 := (hmem n c).1 h3
        have e2 := (hmem n' c).1 h4
        have : (n, c) = (n', c) := List.inj_on_of_nodup_map hb.once e1 e2 rfl
        exact congrArg Prod.fst this

/-- the hypotheses of c31_sorted_bfs_successors can be met -/
example : Reachable bfsSample ∧ bfsSample.sortedBfsSuccessors 9 (.str "s") =
    .ok [(.str "s", [.str "np", .str "vp"]), (.str "np", [.str "t0"]), (.str "vp", [.str "t1"])] := by
  refine ⟨bfsSample_reachable, ?_⟩
  unfold sortedBfsSuccessors
  rw [bfsSample_edges]
  decide +kernel

end DG
end Dg
