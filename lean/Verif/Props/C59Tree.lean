import Verif.Props.C59
import Verif.Props.C34

/-! **C59**, continued: the tokens, the shape and the completeness of the graph of a .dis file. -/

namespace Dg
open Dict
open Rst (WellFormed NoMarks)
namespace DG

theorem graphTokens_nodup (ns : String) {t : Rst} (hw : t.WellFormed) : ((t.graphTokens ns).map Prod.fst).Nodup := by
  unfold Rst.graphTokens
  rw [List.map_flatMap, List.nodup_flatMap]
  refine ⟨?_, ?_⟩
  · intro p _
    rw [List.map_map]
    have h : (p.words.zipIdx.map Prod.snd).Nodup := by
      rw [List.zipIdx_map_snd]
      exact List.nodup_range'
    refine List.Nodup.of_map (fun m => m) ?_
    rw [List.map_map]
    refine List.Nodup.map_on ?_ (List.Nodup.of_map _ h)
    intro x hx y hy e
    refine List.inj_on_of_nodup_map h hx hy ?_
    exact (DisPart.token_inj (p := p) (q := p) e).2
  · refine (Rst.visited_pairwise hw).imp_of_mem ?_
    intro p q hp hq hd
    simp only [Function.onFun]
    rw [List.disjoint_left]
    intro m h1 h2
    rw [List.map_map] at h1 h2
    obtain ⟨x, hx, rfl⟩ := List.mem_map.1 h1
    obtain ⟨y, hy, e⟩ := List.mem_map.1 h2
    obtain ⟨s, hs⟩ := words_edu hx
    obtain ⟨s', hs'⟩ := words_edu hy
    obtain ⟨rfl, _⟩ := Rst.token_unique hw hp hq hs hs' e.symm
    rcases hd with hd | hd <;> exact hd rfl

theorem dis_tokens {name ns : String} {precedence : Bool} {t : Rst} {g : DG} (b : Built (disRootGraph name ns t) (disAllCalls ns true precedence t) g) : g.tokens = (t.graphTokens ns).map Prod.fst := by
  rw [b.tokens]
  show [] ++ _ = _
  rw [List.nil_append]
  unfold disAllCalls
  rw [List.flatMap_append, disCalls_tokens, if_pos rfl]
  cases precedence with
  | false => simp
  | true => rw [if_pos rfl, edgeCalls_tokens, List.append_nil]

/-- **C59 (tokens)**.  With `tokenize`, the tokens of the graph are the words of the visited EDUs, in the order of the document; no node is listed twice, and `get_tokens()` returns them with their words. -/
theorem c59_tokens (name ns : String) (precedence : Bool) (t : Rst) (hw : t.WellFormed) (hm : t.NoMarks) (ht : ∀ s, t ≠ .edu s) (g : DG) (h : disRead name ns true precedence t.disDoc = .ok g) :
    g.tokens = (t.graphTokens ns).map Prod.fst ∧ g.tokens.Nodup ∧ (t.graphTokens ns).map Prod.snd = t.visited.flatMap DisPart.words ∧
    (∀ w ∈ t.graphTokens ns, g.nodeAttr w.1 (qual ns "token") = some (strVal w.2) ∧ g.nodeAttr w.1 "label" = some (strVal w.2)) ∧
    g.getTokens = ((t.graphTokens ns).map (fun w => (w.1, strVal w.2)), none) := by
  obtain ⟨_, _, b⟩ := disRead_content hw hm ht h
  have htok := dis_tokens b
  have q : "label" ≠ qual ns "token" := fun h => qual_ne_plain (by decide) h.symm
  have h1 : ∀ w ∈ t.graphTokens ns, g.nodeAttr w.1 (qual ns "token") = some (strVal w.2) := by
    intro w hwt
    rw [token_attr_dis hw ht b hwt _ (qual_layers ns _)]
    simp [find]
  refine ⟨htok, ?_, graphTokens_words ns t, ?_, ?_⟩
  · rw [htok]
    exact graphTokens_nodup ns hw
  · intro w hwt
    refine ⟨h1 w hwt, ?_⟩
    rw [token_attr_dis hw ht b hwt _ (by decide)]
    simp [find, Ne.symm q]
  · unfold getTokens
    rw [htok]
    have hns : g.ns = ns := b.ns
    have key : ∀ ts : List (NodeId × List Char), (∀ w ∈ ts, w ∈ t.graphTokens ns) → Gen.collect (fun t => match g.getToken t with
      | .ok v => .ok (some (t, v))
      | .error e => .error e) (ts.map Prod.fst) = (ts.map (fun w => (w.1, strVal w.2)), none) := by
      intro ts hts
      induction ts with
      | nil => rfl
      | cons w ts ih =>
        have hg : g.getToken w.1 = .ok (strVal w.2) := by
          unfold getToken
          rw [hns]
          exact getAttr_ok.2 (h1 w (hts w (by simp)))
        have := ih (fun w hw => hts w (by simp [hw]))
        simp only [List.map_cons]
        unfold Gen.collect
        simp only [hg, this]
    exact key _ (fun _ h => h)

/-! ### the graph is a tree -/

/-- if no node is the target of two of the edges, every target has exactly one incoming edge -/
theorem EdgesAre.single {g : DG} {es : List EdgeSpec} (h : EdgesAre g es) (hn : (es.map EdgeSpec.target).Nodup) {e : EdgeSpec} (he : e ∈ es) : g.edgeCount e.source e.target = 1 ∧ ∀ u, u ≠ e.source → g.edgeCount u e.target = 0 := by
  have hu : ∀ e' ∈ es, e'.target = e.target → e' = e := fun e' he' ht => List.inj_on_of_nodup_map hn he' he ht
  refine ⟨?_, ?_⟩
  · rw [h.count, List.countP_eq_length_filter]
    have h1 : es.filter (fun e' => decide (e'.source = e.source ∧ e'.target = e.target)) = es.filter (fun e' => decide (e'.target = e.target)) := by
      apply List.filter_congr
      intro e' he'
      by_cases ht : e'.target = e.target
      · obtain rfl := hu e' he' ht
        simp
      · simp [ht]
    rw [h1]
    have h2 : ((es.filter (fun e' => decide (e'.target = e.target))).map EdgeSpec.target) = (es.map EdgeSpec.target).filter (fun x => decide (x = e.target)) := by
      rw [List.filter_map]
      rfl
    have h3 : ((es.map EdgeSpec.target).filter (fun x => decide (x = e.target))).length = 1 := by
      rw [← List.countP_eq_length_filter]
      have h4 : (fun x : NodeId => decide (x = e.target)) = (· == e.target) := by funext x; rfl
      rw [h4, ← List.count_eq_countP]
      exact List.count_eq_one_of_mem hn (List.mem_map_of_mem he)
    rw [← h3, ← h2, List.length_map]
  · intro u hu'
    rw [h.count, List.countP_eq_zero]
    intro e' he' hc
    simp only [decide_eq_true_eq] at hc
    obtain rfl := hu e' he' hc.2
    exact hu' hc.1.symm

theorem EdgesAre.untouched {g : DG} {es : List EdgeSpec} (h : EdgesAre g es) {m : NodeId} (hm : ∀ e ∈ es, e.target ≠ m) (u : NodeId) : g.edgeCount u m = 0 := by
  rw [h.count, List.countP_eq_zero]
  intro e he hc
  simp only [decide_eq_true_eq] at hc
  exact hm e he hc.2

theorem visited_perm (t : Rst) : ∀ p : DisPart, p.tree = t → p.visited.Perm (p :: p.visited.flatMap (fun q => q.parts.tail)) := by
  induction t using Rst.ind with
  | h1 s =>
    intro p ht
    have : p.parts = [] := by simp [DisPart.parts, ht]
    rw [DisPart.visited_eq, this]
    simp [this]
  | h2 a kids ih =>
    intro p ht
    rw [DisPart.visited_eq]
    refine List.Perm.cons _ ?_
    have hp : ∀ q ∈ p.parts, q.visited.Perm (q :: q.visited.flatMap (fun q => q.parts.tail)) := by
      intro q hq
      have : (q.nuc, q.tree) ∈ kids := by
        unfold DisPart.parts at hq
        rw [ht] at hq
        exact Rst.mem_dirParts hq
      exact ih _ this q rfl
    have hp' : ∀ q ∈ p.parts.tail, q.visited.Perm (q :: q.visited.flatMap (fun q => q.parts.tail)) := fun q hq => hp q (List.mem_of_mem_tail hq)
    rw [List.flatMap_cons]
    generalize p.parts.tail = qs at hp'
    induction qs with
    | nil => exact .nil
    | cons q qs ihq =>
      have h1 := hp' q (by simp)
      have h2 := ihq (fun q hq => hp' q (by simp [hq]))
      rw [List.flatMap_cons, List.flatMap_append, List.cons_append]
      refine (List.Perm.append h1 h2).trans ?_
      rw [List.cons_append]
      refine List.Perm.cons _ ?_
      rw [← List.append_assoc, ← List.append_assoc]
      exact List.Perm.append_right _ List.perm_append_comm

theorem doc_visited_perm (t : Rst) : t.visited.Perm (t.docParts ++ t.visited.flatMap (fun q => q.parts.tail)) := by
  unfold Rst.visited
  generalize t.docParts = ps
  induction ps with
  | nil => exact .nil
  | cons q qs ihq =>
    rw [List.flatMap_cons, List.flatMap_append, List.cons_append]
    refine (List.Perm.append (visited_perm _ q rfl) ihq).trans ?_
    rw [List.cons_append]
    refine List.Perm.cons _ ?_
    rw [← List.append_assoc, ← List.append_assoc]
    exact List.Perm.append_right _ List.perm_append_comm

theorem append_flatMap_perm {α β : Type} (f h : α → List β) (xs : List α) : (xs.flatMap (fun x => f x ++ h x)).Perm (xs.flatMap f ++ xs.flatMap h) := by
  induction xs with
  | nil => exact .nil
  | cons x xs ih =>
    rw [List.flatMap_cons, List.flatMap_cons, List.flatMap_cons, List.append_assoc, List.append_assoc]
    refine List.Perm.append_left _ ?_
    refine (List.Perm.append_left _ ih).trans ?_
    rw [← List.append_assoc, ← List.append_assoc]
    exact List.Perm.append_right _ List.perm_append_comm

/-- the targets of the edges are the nodes below the root, each once -/
theorem graphEdges_targets (ns : String) (tokenize : Bool) (t : Rst) : ((t.graphEdges ns tokenize).map EdgeSpec.target).Perm (t.visited.map (DisPart.node ns) ++ if tokenize then (t.graphTokens ns).map Prod.fst else []) := by
  unfold Rst.graphEdges
  rw [List.map_append, List.map_map, List.map_flatMap]
  have h1 : (fun p : DisPart => (p.edges ns tokenize).map EdgeSpec.target) = fun p => (if tokenize then p.words.zipIdx.map (fun w => p.tokenNode ns w.2) else []) ++ p.parts.tail.map (DisPart.node ns) := by
    funext p
    unfold DisPart.edges
    rw [List.map_append, List.map_map]
    congr 1
    cases tokenize with
    | false => rfl
    | true => simp only [if_true, List.map_map]; rfl
  rw [h1]
  refine (List.Perm.append_left _ (append_flatMap_perm _ _ _)).trans ?_
  have h2 : t.visited.flatMap (fun p => if tokenize = true then p.words.zipIdx.map (fun w => p.tokenNode ns w.2) else []) = if tokenize then (t.graphTokens ns).map Prod.fst else [] := by
    cases tokenize with
    | false => simp
    | true =>
      simp only [if_true]
      unfold Rst.graphTokens
      rw [List.map_flatMap]
      congr 1
      funext p
      rw [List.map_map]
      rfl
  rw [h2]
  have h3 := (doc_visited_perm t).map (DisPart.node ns)
  rw [List.map_append, List.map_flatMap] at h3
  refine List.Perm.trans ?_ (List.Perm.append_right _ h3.symm)
  rw [List.append_assoc]
  exact List.Perm.append_left _ List.perm_append_comm

theorem visited_nodes_nodup (ns : String) {t : Rst} (hw : t.WellFormed) : (t.visited.map (DisPart.node ns)).Nodup := by
  rw [List.Nodup, List.pairwise_map]
  refine (Rst.visited_pairwise hw).imp_of_mem ?_
  intro p q hp hq hd e
  obtain rfl := Rst.visited_unique hw hp hq e
  rcases hd with hd | hd <;> exact hd rfl

theorem graphEdges_targets_nodup (ns : String) (tokenize : Bool) {t : Rst} (hw : t.WellFormed) : ((t.graphEdges ns tokenize).map EdgeSpec.target).Nodup := by
  rw [(graphEdges_targets ns tokenize t).nodup_iff, List.nodup_append']
  refine ⟨visited_nodes_nodup ns hw, ?_, ?_⟩
  · cases tokenize with
    | false => exact List.nodup_nil
    | true => exact graphTokens_nodup ns hw
  · rw [List.disjoint_left]
    intro m h1 h2
    obtain ⟨p, _, rfl⟩ := List.mem_map.1 h1
    cases tokenize with
    | false => cases h2
    | true =>
      obtain ⟨w, hw', e⟩ := List.mem_map.1 h2
      obtain ⟨q, _, i, _, e'⟩ := mem_graphTokens.1 (show (w.1, w.2) ∈ _ from hw')
      rw [e'] at e
      exact DisPart.token_ne e

theorem part_reachable {ns : String} {g : DG} {u0 : NodeId} (t : Rst) : ∀ p : DisPart, p.tree = t → (∀ q ∈ p.visited, ∀ c ∈ q.parts.tail, 0 < g.edgeCount (q.node ns) (c.node ns)) → Relation.ReflTransGen (fun u v => 0 < g.edgeCount u v) u0 (p.node ns) →
    ∀ q ∈ p.visited, Relation.ReflTransGen (fun u v => 0 < g.edgeCount u v) u0 (q.node ns) := by
  induction t using Rst.ind with
  | h1 s =>
    intro p ht _ h q hq
    have : p.parts = [] := by simp [DisPart.parts, ht]
    rw [DisPart.visited_eq, this] at hq
    obtain rfl := List.mem_singleton.1 hq
    exact h
  | h2 a kids ih =>
    intro p ht he h q hq
    have hmem : ∀ c ∈ p.parts.tail, ∀ r ∈ c.visited, r ∈ p.visited := by
      intro c hc r hr
      rw [DisPart.visited_eq]
      exact List.mem_cons_of_mem _ (List.mem_flatMap.2 ⟨c, hc, hr⟩)
    rw [DisPart.visited_eq] at hq
    rcases List.mem_cons.1 hq with rfl | hq
    · exact h
    · obtain ⟨c, hc, hq⟩ := List.mem_flatMap.1 hq
      have hk : (c.nuc, c.tree) ∈ kids := by
        have hc' := List.mem_of_mem_tail hc
        unfold DisPart.parts at hc'
        rw [ht] at hc'
        exact Rst.mem_dirParts hc'
      exact ih _ hk c rfl (fun r hr => he r (hmem c hc r hr)) (h.tail (he p (by rw [DisPart.visited_eq]; simp) c hc)) q hq

/-- **C59 (shape)**.  Without precedence edges the graph is a tree: there is no edge to the root, exactly one edge to every other node, and every node can be reached from the root. -/
theorem c59_tree (name ns : String) (tokenize : Bool) (t : Rst) (hw : t.WellFormed) (hm : t.NoMarks) (ht : ∀ s, t ≠ .edu s) (g : DG) (h : disRead name ns tokenize false t.disDoc = .ok g) :
    (∀ u, g.edgeCount u g.root = 0) ∧
    (∀ m, g.HasNode m → m ≠ g.root → ∃ u, g.edgeCount u m = 1 ∧ ∀ u', u' ≠ u → g.edgeCount u' m = 0) ∧
    (∀ m, g.HasNode m → Relation.ReflTransGen (fun u v => 0 < g.edgeCount u v) g.root m) := by
  have he := c59_edges name ns tokenize false t hw hm ht g h
  simp only [Bool.false_eq_true, if_false, List.append_nil] at he
  have hn := graphEdges_targets_nodup ns tokenize hw
  have hroot : g.root = t.docNode ns := (c59_root name ns tokenize false t hw hm ht g h).2.2.1
  have hmem : ∀ m, m ∈ (t.graphEdges ns tokenize).map EdgeSpec.target ↔ m ∈ t.visited.map (DisPart.node ns) ++ if tokenize then (t.graphTokens ns).map Prod.fst else [] := fun m => (graphEdges_targets ns tokenize t).mem_iff
  have hpos : ∀ e ∈ t.graphEdges ns tokenize, 0 < g.edgeCount e.source e.target := by
    intro e hee
    rw [(he.single hn hee).1]
    exact Nat.one_pos
  have hvis : ∀ q ∈ t.visited, ∀ c ∈ q.parts.tail, 0 < g.edgeCount (q.node ns) (c.node ns) := by
    intro q hq c hc
    refine hpos ⟨_, _, [ns], (qual ns "rel_type", DG.strVal q.role) :: (if c.nuc = .S then [("edge_type", .atom (.str "dominates"))] else [])⟩ (List.mem_append_right _ (List.mem_flatMap.2 ⟨q, hq, ?_⟩))
    exact List.mem_append_right _ (List.mem_map.2 ⟨c, hc, rfl⟩)
  have hreach : ∀ p ∈ t.visited, Relation.ReflTransGen (fun u v => 0 < g.edgeCount u v) g.root (p.node ns) := by
    intro p hp
    obtain ⟨c, hc, hp⟩ := List.mem_flatMap.1 hp
    refine part_reachable _ c rfl ?_ ?_ p hp
    · intro q hq
      exact hvis q (List.mem_flatMap.2 ⟨c, hc, hq⟩)
    · rw [hroot]
      exact .single (hpos ⟨_, _, [ns], [("edge_type", .atom (.str "dominates"))]⟩ (List.mem_append_left _ (List.mem_map.2 ⟨c, hc, rfl⟩)))
  refine ⟨?_, ?_, ?_⟩
  · intro u
    rw [hroot]
    refine he.untouched ?_ u
    intro e hee hc
    have := (hmem _).1 (List.mem_map_of_mem (f := EdgeSpec.target) hee)
    rw [hc] at this
    rcases List.mem_append.1 this with h1 | h1
    · obtain ⟨p, hp, e1⟩ := List.mem_map.1 h1
      exact Rst.docNode_ne ht hw hp e1
    · cases tokenize with
      | false => cases h1
      | true =>
        obtain ⟨w, hw', e1⟩ := List.mem_map.1 h1
        obtain ⟨q, _, i, _, e2⟩ := mem_graphTokens.1 (show (w.1, w.2) ∈ _ from hw')
        rw [e1, Rst.docNode_eq ht] at e2
        exact DisPart.token_ne e2.symm
  · intro m hmn hne
    have : m ∈ (t.graphEdges ns tokenize).map EdgeSpec.target := by
      rw [hmem]
      rcases (c59_nodes name ns tokenize false t hw hm ht g h m).1 hmn with h1 | ⟨p, hp, rfl⟩ | ⟨htk, w, hw', rfl⟩
      · exact absurd (h1.trans hroot.symm) hne
      · exact List.mem_append_left _ (List.mem_map_of_mem hp)
      · rw [htk]; exact List.mem_append_right _ (List.mem_map_of_mem hw')
    obtain ⟨e, hee, rfl⟩ := List.mem_map.1 this
    exact ⟨e.source, he.single hn hee⟩
  · intro m hmn
    rcases (c59_nodes name ns tokenize false t hw hm ht g h m).1 hmn with h1 | ⟨p, hp, rfl⟩ | ⟨htk, w, hw', rfl⟩
    · rw [h1, hroot]
    · exact hreach p hp
    · subst htk
      obtain ⟨p, hp, i, hi, e⟩ := mem_graphTokens.1 (show (w.1, w.2) ∈ _ from hw')
      rw [e]
      refine (hreach p hp).tail (hpos ⟨_, _, [ns], []⟩ (List.mem_append_right _ (List.mem_flatMap.2 ⟨p, hp, ?_⟩)))
      exact List.mem_append_left _ (List.mem_map.2 ⟨(w.2, i), hi, rfl⟩)

/-! ### what is lost -/

/-- the words of a document -/
theorem edus_words (kids : List (Nuc × Rst)) : (Rst.edusAll kids).flatMap splitWs = kids.flatMap (fun k => k.2.edus.flatMap splitWs) := by
  induction kids with
  | nil => rfl
  | cons k ks ih =>
    show (k.2.edus ++ Rst.edusAll ks).flatMap splitWs = _
    rw [List.flatMap_append, ih, List.flatMap_cons]

theorem parts_words (p : DisPart) {a : List Char} {kids : List (Nuc × Rst)} (ht : p.tree = .rel a kids) : p.tree.edus.flatMap splitWs = p.parts.flatMap (fun q => q.tree.edus.flatMap splitWs) := by
  have hp : p.parts = Rst.dirParts p.first a (kids.map Prod.fst) kids := by simp only [DisPart.parts, ht]
  rw [hp]
  have h := Rst.dirParts_trees p.first a (kids.map Prod.fst) kids
  rw [ht]
  show (Rst.edusAll kids).flatMap splitWs = _
  rw [edus_words]
  conv_lhs => rw [← h]
  rw [List.flatMap_map]

theorem flatMap_sublist_of {α β : Type} {f h : α → List β} {xs : List α} (hx : ∀ x ∈ xs, (f x).Sublist (h x)) : (xs.flatMap f).Sublist (xs.flatMap h) := by
  induction xs with
  | nil => exact .slnil
  | cons x xs ih =>
    rw [List.flatMap_cons, List.flatMap_cons]
    exact (hx x (by simp)).append (ih (fun y hy => hx y (by simp [hy])))

/-- the words read in a part are words of the part -/
theorem visited_words_sublist (t : Rst) : ∀ p : DisPart, p.tree = t → (p.visited.flatMap DisPart.words).Sublist (t.edus.flatMap splitWs) := by
  induction t using Rst.ind with
  | h1 s =>
    intro p ht
    have : p.parts = [] := by simp [DisPart.parts, ht]
    rw [DisPart.visited_eq, this]
    simp [DisPart.words, ht, Rst.edus]
  | h2 a kids ih =>
    intro p ht
    rw [DisPart.visited_eq, List.flatMap_cons]
    have : p.words = [] := by simp [DisPart.words, ht]
    rw [this, List.nil_append, ← ht, parts_words p ht, List.flatMap_assoc]
    have h1 : (p.parts.flatMap (fun q => q.visited.flatMap DisPart.words)).Sublist (p.parts.flatMap (fun q => q.tree.edus.flatMap splitWs)) := by
      apply flatMap_sublist_of
      intro q hq
      refine ih (q.nuc, q.tree) ?_ q rfl
      unfold DisPart.parts at hq
      rw [ht] at hq
      exact Rst.mem_dirParts hq
    refine List.Sublist.trans ?_ h1
    cases p.parts with
    | nil => exact .slnil
    | cons x xs => rw [List.flatMap_cons]; exact List.sublist_append_right _ _

theorem words_pos (t : Rst) (hw : t.WellFormed) : 1 ≤ (t.edus.flatMap splitWs).length := by
  have h := visited_words t ⟨1, .N, [], t⟩ rfl hw
  have h2 := (visited_words_sublist t ⟨1, .N, [], t⟩ rfl).length_le
  omega

/-- of the words of a relation below the top one, some are not read -/
theorem visited_words_less {t : Rst} (hw : t.WellFormed) {p : DisPart} (ht : p.tree = t) {a : List Char} {kids : List (Nuc × Rst)} (hr : t = .rel a kids) : (p.visited.flatMap DisPart.words).length < (t.edus.flatMap splitWs).length := by
  subst ht
  rw [DisPart.visited_eq, List.flatMap_cons]
  have hwd : p.words = [] := by simp [DisPart.words, hr]
  rw [hwd, List.nil_append, parts_words p hr, List.flatMap_assoc]
  have hp : p.parts = Rst.dirParts p.first a (kids.map Prod.fst) kids := by simp only [DisPart.parts, hr]
  obtain ⟨k1, k2, ks, hk⟩ := Rst.two_kids hw hr
  cases hpp : p.parts with
  | nil => rw [hk] at hp; rw [hpp] at hp; cases hp
  | cons x xs =>
    rw [List.tail_cons, List.flatMap_cons, List.length_append]
    have h1 := words_pos x.tree (hw.part (DisPart.part (by rw [hpp]; simp)))
    have h2 : (xs.flatMap (fun q => q.visited.flatMap DisPart.words)).Sublist (xs.flatMap (fun q => q.tree.edus.flatMap splitWs)) := flatMap_sublist_of (fun q _ => visited_words_sublist _ q rfl)
    have := h2.length_le
    omega

/-- **C59 (completeness), partial**.  If all parts of the topmost relation are EDUs, then the tokens of the graph are the words of the document.  The full statement, for all documents, is false (`c59_fails_complete`). -/
theorem c59_complete_partial (name ns : String) (precedence : Bool) (a : List Char) (kids : List (Nuc × Rst)) (hw : (Rst.rel a kids).WellFormed) (hm : (Rst.rel a kids).NoMarks) (hk : ∀ k ∈ kids, ∃ s, k.2 = .edu s) (g : DG)
    (h : disRead name ns true precedence (Rst.rel a kids).disDoc = .ok g) : g.getTokens.1.map Prod.snd = ((Rst.rel a kids).edus.flatMap splitWs).map strVal := by
  obtain ⟨_, _, h3, _, h5⟩ := c59_tokens name ns precedence _ hw hm (fun s => by simp) g h
  rw [h5]
  have : (((Rst.rel a kids).graphTokens ns).map (fun w : NodeId × List Char => (w.1, strVal w.2))).map Prod.snd = (((Rst.rel a kids).graphTokens ns).map Prod.snd).map strVal := by
    rw [List.map_map, List.map_map]; rfl
  rw [this, h3]
  congr 1
  rw [show (Rst.rel a kids).edus = (Rst.rel a kids).whole.tree.edus from rfl, parts_words (Rst.rel a kids).whole rfl]
  unfold Rst.visited
  rw [Rst.docParts_eq, List.flatMap_assoc]
  have : ∀ q ∈ (Rst.rel a kids).whole.parts, q.visited.flatMap DisPart.words = q.tree.edus.flatMap splitWs := by
    intro q hq
    obtain ⟨s, hs⟩ := hk (q.nuc, q.tree) (Rst.mem_dirParts hq)
    simp only at hs
    have hp : q.parts = [] := by simp [DisPart.parts, hs]
    rw [DisPart.visited_eq, hp]
    simp [DisPart.words, hs, Rst.edus]
  clear h3 h5
  generalize (Rst.rel a kids).whole.parts = ps at this
  induction ps with
  | nil => rfl
  | cons q qs ih => rw [List.flatMap_cons, List.flatMap_cons, this q (by simp), ih (fun q hq => this q (by simp [hq]))]

/-- **C59: text is lost**.  As soon as a part of the topmost relation is a relation itself, the graph contains fewer tokens than the document has words (its tokens are some of the words, in order). -/
theorem c59_fails_complete (name ns : String) (precedence : Bool) (a : List Char) (kids : List (Nuc × Rst)) (hw : (Rst.rel a kids).WellFormed) (hm : (Rst.rel a kids).NoMarks) (hk : ∃ k ∈ kids, ∃ b ks, k.2 = .rel b ks) (g : DG)
    (h : disRead name ns true precedence (Rst.rel a kids).disDoc = .ok g) :
    (g.getTokens.1.map Prod.snd).Sublist (((Rst.rel a kids).edus.flatMap splitWs).map strVal) ∧ g.tokens.length < ((Rst.rel a kids).edus.flatMap splitWs).length := by
  obtain ⟨h1, _, h3, _, h5⟩ := c59_tokens name ns precedence _ hw hm (fun s => by simp) g h
  rw [h5, h1]
  have : (((Rst.rel a kids).graphTokens ns).map (fun w : NodeId × List Char => (w.1, strVal w.2))).map Prod.snd = (((Rst.rel a kids).graphTokens ns).map Prod.snd).map strVal := by
    rw [List.map_map, List.map_map]; rfl
  rw [this, List.length_map, ← List.length_map (as := (Rst.rel a kids).graphTokens ns) Prod.snd, h3]
  rw [show (Rst.rel a kids).edus = (Rst.rel a kids).whole.tree.edus from rfl, parts_words (Rst.rel a kids).whole rfl]
  unfold Rst.visited
  rw [Rst.docParts_eq, List.flatMap_assoc]
  have hsub : ((Rst.rel a kids).whole.parts.flatMap (fun q => q.visited.flatMap DisPart.words)).Sublist ((Rst.rel a kids).whole.parts.flatMap (fun q => q.tree.edus.flatMap splitWs)) := flatMap_sublist_of (fun q _ => visited_words_sublist _ q rfl)
  refine ⟨hsub.map _, ?_⟩
  obtain ⟨k, hk, b, ks, hb⟩ := hk
  have hex : ∃ q ∈ (Rst.rel a kids).whole.parts, q.tree = .rel b ks := by
    have e := Rst.dirParts_trees 1 a (kids.map Prod.fst) kids
    rw [← e] at hk
    obtain ⟨q, hq, e'⟩ := List.mem_map.1 hk
    refine ⟨q, hq, ?_⟩
    rw [← hb, ← e']
  obtain ⟨q, hq, hqt⟩ := hex
  obtain ⟨l1, l2, e⟩ := List.append_of_mem hq
  have hlt := visited_words_less (hw.part (DisPart.part (p := (Rst.rel a kids).whole) hq)) (p := q) rfl hqt
  rw [e]
  simp only [List.flatMap_append, List.flatMap_cons, List.length_append]
  have s1 := (flatMap_sublist_of (xs := l1) (fun q _ => visited_words_sublist _ q rfl)).length_le
  have s2 := (flatMap_sublist_of (xs := l2) (fun q _ => visited_words_sublist _ q rfl)).length_le
  omega

theorem flat_calls (ns : String) (tokenize : Bool) (u : NodeId) (a a' : List Char) (kids : List (Nuc × Rst)) (hk : ∀ k ∈ kids, ∃ s, k.2 = .edu s) (first : Nat) (nucs nucs' : List Nuc) :
    (Rst.dirParts first a nucs kids).flatMap (fun c => Instr.edge u (c.node ns) [ns] [("edge_type", .atom (.str "dominates"))] :: c.visited.flatMap (DisPart.calls ns tokenize)) =
    (Rst.dirParts first a' nucs' kids).flatMap (fun c => Instr.edge u (c.node ns) [ns] [("edge_type", .atom (.str "dominates"))] :: c.visited.flatMap (DisPart.calls ns tokenize)) := by
  induction kids generalizing first with
  | nil => rfl
  | cons k ks ih =>
    obtain ⟨n, t⟩ := k
    obtain ⟨s, hs⟩ := hk (n, t) (by simp)
    simp only at hs
    subst hs
    simp only [Rst.dirParts, List.flatMap_cons]
    rw [ih (fun k hk' => hk k (by simp [hk']))]
    rfl

/-- **C59: relations are lost**.  If all parts of the topmost relation are EDUs, the graph does not depend on which relation it is. -/
theorem c59_fails_relation (name ns : String) (tokenize precedence : Bool) (a a' : List Char) (kids : List (Nuc × Rst)) (hw : (Rst.rel a kids).WellFormed) (hw' : (Rst.rel a' kids).WellFormed) (hm : (Rst.rel a kids).NoMarks) (hm' : (Rst.rel a' kids).NoMarks) (hk : ∀ k ∈ kids, ∃ s, k.2 = .edu s) :
    disRead name ns tokenize precedence (Rst.rel a kids).disDoc = disRead name ns tokenize precedence (Rst.rel a' kids).disDoc := by
  have hnc : ∀ b, ¬ ∃ q ∈ (Rst.rel b kids).visited, q.Conflict := by
    rintro b ⟨q, hq, hc⟩
    unfold Rst.visited at hq
    obtain ⟨c, hc', hq⟩ := List.mem_flatMap.1 hq
    obtain ⟨s, hs⟩ := hk (c.nuc, c.tree) (Rst.mem_dirParts hc')
    simp only at hs
    have hp : c.parts = [] := by simp [DisPart.parts, hs]
    rw [DisPart.visited_eq, hp] at hq
    obtain rfl := List.mem_singleton.1 hq
    have := hc.2
    rw [hp] at this
    cases this
  have h1 := disRead_plain name ns tokenize hw hm (fun s => by simp)
  have h2 := disRead_plain name ns tokenize hw' hm' (fun s => by simp)
  rw [if_neg (hnc _)] at h1 h2
  have e : disCalls ns tokenize (Rst.rel a kids) = disCalls ns tokenize (Rst.rel a' kids) := flat_calls ns tokenize _ a a' kids hk 1 _ _
  have e' : disRootGraph name ns (Rst.rel a kids) = disRootGraph name ns (Rst.rel a' kids) := rfl
  rw [e, e', ← h2] at h1
  unfold disRead
  cases hs : disStart name ns with
  | error x => rfl
  | ok g0 =>
    rw [hs] at h1
    simp only [except_bind_ok] at h1 ⊢
    rw [h1]

/-- **C59: `get_span` fails**.  On the node of an EDU that was read, `get_span` raises KeyError, however large the recursion limit: the edges to the words have no type. -/
theorem c59_fails_span (name ns : String) (precedence : Bool) (t : Rst) (hw : t.WellFormed) (hm : t.NoMarks) (ht : ∀ s, t ≠ .edu s) (g : DG) (h : disRead name ns true precedence t.disDoc = .ok g) (p : DisPart) (hp : p ∈ t.visited) (s : List Char) (hs : p.tree = .edu s) (fuel : Nat) :
    g.getSpan (fuel + 1) (p.node ns) = .error .key := by
  have he := c59_edges name ns true precedence t hw hm ht g h
  obtain ⟨_, _, b⟩ := disRead_content hw hm ht h
  have wf := b.inv.wf
  have hn := (c59_nodes name ns true precedence t hw hm ht g h (p.node ns)).2 (.inr (.inl ⟨p, hp, rfl⟩))
  have hall : ∀ e ∈ g.outEdges (p.node ns), e.1 ≠ e.2.1 ∧ find e.2.2.2 "edge_type" = none := by
    rintro ⟨u, v, k, a⟩ hee
    obtain ⟨rfl, hka⟩ := (mem_outEdges wf _ _ _ _ _).1 hee
    obtain ⟨e, hes, e1, e2, e3⟩ := he.sound _ _ _ ⟨k, hka⟩
    have key : e.source ≠ e.target ∧ e.attrs = [] := by
      rcases List.mem_append.1 hes with hes | hes
      · rcases List.mem_append.1 hes with hes | hes
        · obtain ⟨c, _, rfl⟩ := List.mem_map.1 hes
          exact (Rst.docNode_ne ht hw hp e1.symm).elim
        · obtain ⟨q, hq, hes⟩ := List.mem_flatMap.1 hes
          have hsrc : e.source = q.node ns := by
            rcases List.mem_append.1 hes with hes | hes
            · obtain ⟨w, _, rfl⟩ := List.mem_map.1 hes
              rfl
            · obtain ⟨w, _, rfl⟩ := List.mem_map.1 hes
              rfl
          obtain rfl := Rst.visited_unique hw hq hp (hsrc.symm.trans e1)
          have hpp : q.parts = [] := by simp [DisPart.parts, hs]
          unfold DisPart.edges at hes
          rw [hpp, if_pos rfl, List.tail_nil, List.map_nil, List.append_nil] at hes
          obtain ⟨w, _, rfl⟩ := List.mem_map.1 hes
          exact ⟨fun e => DisPart.token_ne e.symm, rfl⟩
      · cases precedence with
        | false => cases hes
        | true =>
          obtain ⟨q, hq, rfl⟩ := List.mem_map.1 hes
          have h1 := (List.of_mem_zip hq).1
          simp only [precEdge] at e1
          rw [e1] at h1
          rcases List.mem_cons.1 h1 with h1 | h1
          · exact (Rst.docNode_ne ht hw hp h1).elim
          · obtain ⟨w, hw', e4⟩ := List.mem_map.1 h1
            obtain ⟨r, _, i, _, e5⟩ := mem_graphTokens.1 (show (w.1, w.2) ∈ _ from hw')
            rw [e4] at e5
            exact (DisPart.token_ne e5.symm).elim
    refine ⟨by rw [← e1, ← e2]; exact key.1, ?_⟩
    rw [e3.1 _ (by decide), key.2]
    rfl
  have hne : g.outEdges (p.node ns) ≠ [] := by
    have hwne : splitWs s ≠ [] := splitWs_ne_nil ((hw.part (Rst.visited_mem hw hp).1).nonblank s (hs ▸ .refl _))
    obtain ⟨w, hwm⟩ : ∃ w, (w, 0) ∈ p.words.zipIdx := by
      have : p.words = splitWs s := by simp [DisPart.words, hs]
      rw [this]
      cases hsp : splitWs s with
      | nil => exact absurd hsp hwne
      | cons w ws => exact ⟨w, by simp⟩
    obtain ⟨a, ⟨k, hka⟩, _⟩ := he.complete ⟨p.node ns, p.tokenNode ns 0, [ns], []⟩ (List.mem_append_left _ (List.mem_append_right _ (List.mem_flatMap.2 ⟨p, hp, List.mem_append_left _ (by
      rw [if_pos rfl]; exact List.mem_map.2 ⟨(w, 0), hwm, rfl⟩)⟩)))
    exact List.ne_nil_of_mem ((mem_outEdges wf _ _ _ _ _).2 ⟨rfl, hka⟩)
  obtain ⟨at', hat⟩ := (hasNode_some _ _).1 hn
  unfold getSpan
  rw [show g.nodes.find (p.node ns) = _ from hat]
  cases hl : g.outEdges (p.node ns) with
  | nil => exact absurd hl hne
  | cons e es =>
    obtain ⟨u, v, k, a⟩ := e
    obtain ⟨h1, h2⟩ := hall (u, v, k, a) (by rw [hl]; simp)
    simp only at h1 h2
    simp only [spanLoop, if_neg h1, nonPointing, h2, bind, Except.bind]

/-! ### the hypotheses are satisfiable -/

theorem c59_example_readable : c34Example.Readable := by unfold Rst.Readable; decide +kernel

example : ∃ g, disRead "f" "dis" true true c34Example.disDoc = .ok g := (c59_reads "f" "dis" true true c34Example c34_example_wf c34_example_marks (by simp [c34Example])).1 c59_example_readable (fun h => h)

example : (disRead "f" "dis" true false c34Example.disDoc).toOption.map (fun g => (g.getTokens.1, g.root, g.edgeCount (.str "dis:span:1-3") (.str "dis:1"))) = some ([(.str "dis:1_0", strVal ['a']), (.str "dis:1_1", strVal ['b']), (.str "dis:3_0", strVal ['d'])], .str "dis:span:1-3", 1) := by decide +kernel

example : (disRead "f" "dis" true false c34Example.disDoc).toOption.map (fun g => ((g.getSpan 1000 (.str "dis:1")).toOption, g.nodeAttr (.str "dis:span:2-3") (qual "dis" "rel_type"))) = some (none, some (strVal ['s', 'p', 'a', 'n'])) := by decide +kernel

/-- a flat document -/
def c59Flat (a : List Char) : Rst := .rel a [(.N, .edu ['u', ' ', 'v']), (.S, .edu ['w'])]

theorem c59_flat_part {a : List Char} {s : Rst} (h : Rst.Part s (c59Flat a)) : s = c59Flat a ∨ s = .edu ['u', ' ', 'v'] ∨ s = .edu ['w'] := by
  cases h with
  | refl => exact .inl rfl
  | kid hk hp =>
    simp only [List.mem_cons, List.not_mem_nil, or_false, Prod.mk.injEq] at hk
    rcases hk with ⟨_, rfl⟩ | ⟨_, rfl⟩ <;> cases hp <;> simp

theorem c59_flat_wf {a : List Char} (h1 : a ≠ ['N']) (h2 : a ≠ ['S']) : (c59Flat a).WellFormed := by
  refine ⟨?_, ?_⟩
  · intro name kids h
    rcases c59_flat_part h with h | h | h
    · simp only [c59Flat, Rst.rel.injEq] at h
      obtain ⟨rfl, rfl⟩ := h
      exact ⟨.inl rfl, h1, h2⟩
    · cases h
    · cases h
  · intro s h
    rcases c59_flat_part h with h | h | h
    · cases h
    · obtain rfl := Rst.edu.inj h; exact ⟨'u', by simp, by decide⟩
    · obtain rfl := Rst.edu.inj h; exact ⟨'w', by simp, by decide⟩

theorem c59_flat_marks (a : List Char) : (c59Flat a).NoMarks := by
  intro s h
  rcases c59_flat_part h with h | h | h
  · cases h
  · obtain rfl := Rst.edu.inj h; decide
  · obtain rfl := Rst.edu.inj h; decide

example : disRead "f" "dis" true true (c59Flat ['c', 'a', 'u', 's', 'e']).disDoc = disRead "f" "dis" true true (c59Flat ['l', 'i', 's', 't']).disDoc :=
  c59_fails_relation "f" "dis" true true _ _ _ (c59_flat_wf (by decide) (by decide)) (c59_flat_wf (by decide) (by decide)) (c59_flat_marks _) (c59_flat_marks _) (by simp)

example : (disRead "f" "dis" true true (c59Flat ['l', 'i', 's', 't']).disDoc).toOption.map (fun g => g.getTokens.1.map Prod.snd) = some [strVal ['u'], strVal ['v'], strVal ['w']] := by decide +kernel

/-- **C59: a satellite made of a nucleus and a satellite cannot be read** -/
theorem c59_fails_satellite : ∃ t : Rst, t.WellFormed ∧ t.NoMarks ∧ ∀ name ns tokenize precedence, disRead name ns tokenize precedence t.disDoc = .error .notImplemented := by
  have hpart : ∀ s, Rst.Part s (.rel ['r'] [(.N, .edu ['x']), (.S, c59Flat ['q'])]) → s = .rel ['r'] [(.N, .edu ['x']), (.S, c59Flat ['q'])] ∨ s = .edu ['x'] ∨ Rst.Part s (c59Flat ['q']) := by
    intro s h
    cases h with
    | refl => exact .inl rfl
    | kid hk hp =>
      simp only [List.mem_cons, List.not_mem_nil, or_false, Prod.mk.injEq] at hk
      rcases hk with ⟨_, rfl⟩ | ⟨_, rfl⟩
      · cases hp; exact .inr (.inl rfl)
      · exact .inr (.inr hp)
  have w := c59_flat_wf (a := ['q']) (by decide) (by decide)
  have hw : (Rst.rel ['r'] [(.N, .edu ['x']), (.S, c59Flat ['q'])]).WellFormed := by
    refine ⟨?_, ?_⟩
    · intro name kids h
      rcases hpart _ h with h | h | h
      · simp only [Rst.rel.injEq] at h
        obtain ⟨rfl, rfl⟩ := h
        exact ⟨.inl rfl, by decide, by decide⟩
      · cases h
      · exact w.relation _ _ h
    · intro s h
      rcases hpart _ h with h | h | h
      · cases h
      · obtain rfl := Rst.edu.inj h; exact ⟨'x', by simp, by decide⟩
      · exact w.nonblank _ h
  have hm : (Rst.rel ['r'] [(.N, .edu ['x']), (.S, c59Flat ['q'])]).NoMarks := by
    intro s h
    rcases hpart _ h with h | h | h
    · cases h
    · obtain rfl := Rst.edu.inj h; decide
    · exact c59_flat_marks _ _ h
  refine ⟨_, hw, hm, ?_⟩
  intro name ns tokenize precedence
  exact (c59_reads name ns tokenize precedence _ hw hm (by simp)).2.1 (by unfold Rst.Readable; decide +kernel)

end DG
end Dg
