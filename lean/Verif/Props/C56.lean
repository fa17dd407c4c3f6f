import Verif.Props.C55
import Verif.Props.C11

/-! C56: queries on TIGER graphs. -/

namespace Dg
open Dict
namespace DG

/-- an edge begins or ends at the node -/
def Touches (g : DG) (n : NodeId) : Prop := ∃ u v k a, g.edgeAttrs u v k = some a ∧ (u = n ∨ v = n)

/-- an edge begins at the node -/
def HasChild (g : DG) (n : NodeId) : Prop := ∃ v k a, g.edgeAttrs n v k = some a

theorem outDegree_pos {g : DG} (wf : WF g) (n : NodeId) : g.outDegree n > 0 ↔ g.HasChild n := by
  unfold outDegree HasChild
  rw [gt_iff_lt, List.length_pos_iff_exists_mem]
  constructor
  · rintro ⟨⟨u, v, k, a⟩, h⟩
    exact ⟨v, k, a, ((mem_outEdges wf n u v k a).1 h).2⟩
  · rintro ⟨v, k, a, h⟩
    exact ⟨_, (mem_outEdges wf n n v k a).2 ⟨rfl, h⟩⟩

theorem degree_zero_iff {g : DG} (wf : WF g) (n : NodeId) : g.degree n = 0 ↔ ¬ g.Touches n := by
  unfold degree Touches
  constructor
  · rintro h ⟨u, v, k, a, he, rfl | rfl⟩
    · have := List.length_pos_of_mem ((mem_outEdges wf u u v k a).2 ⟨rfl, he⟩)
      omega
    · have := List.length_pos_of_mem ((mem_inEdges wf v u v k a).2 ⟨rfl, he⟩)
      omega
  · intro h
    have h1 : g.outEdges n = [] := by
      rw [List.eq_nil_iff_forall_not_mem]
      rintro ⟨u, v, k, a⟩ he
      obtain ⟨rfl, he⟩ := (mem_outEdges wf n u v k a).1 he
      exact h ⟨u, v, k, a, he, .inl rfl⟩
    have h2 : g.inEdges n = [] := by
      rw [List.eq_nil_iff_forall_not_mem]
      rintro ⟨u, v, k, a⟩ he
      obtain ⟨rfl, he⟩ := (mem_inEdges wf n u v k a).1 he
      exact h ⟨u, v, k, a, he, .inr rfl⟩
    rw [h1, h2]; rfl

/-- **C56 (unconnected nodes)**.  In every graph, `get_unconnected_nodes` returns, each once, exactly the nodes at which no edge begins or ends, and nothing if the graph has only one node. -/
theorem c56_unconnected (g : DG) (hi : Inv g) :
    g.getUnconnectedNodes.Nodup ∧ ∀ n, n ∈ g.getUnconnectedNodes ↔ g.HasNode n ∧ ¬ g.Touches n ∧ ∃ m, g.HasNode m ∧ m ≠ n := by
  unfold getUnconnectedNodes
  refine ⟨hi.wf.nodesNodup.filter _, ?_⟩
  intro n
  rw [List.mem_filter, decide_eq_true_eq, degree_zero_iff hi.wf]
  refine and_congr_right fun hn => and_congr_right fun _ => ?_
  have hn' : n ∈ keys g.nodes := hn
  have nd := hi.wf.nodesNodup
  have hlen : g.nodes.length = (keys g.nodes).length := by unfold keys; rw [List.length_map]
  rw [hlen]
  show _ ↔ ∃ m, m ∈ keys g.nodes ∧ m ≠ n
  generalize keys g.nodes = ks at hn' nd
  constructor
  · intro h
    match ks, nd, h with
    | a :: b :: r, nd, _ =>
      by_cases hab : a = n
      · subst hab
        refine ⟨b, by simp, ?_⟩
        rintro rfl
        simp at nd
      · exact ⟨a, by simp, hab⟩
  · rintro ⟨m, hm, hne⟩
    match ks, hn', hm with
    | [a], hn', hm =>
      simp at hn' hm
      exact (hne (hm.trans hn'.symm)).elim
    | _ :: _ :: _, _, _ => simp

example : ∃ g, tigerRead "f.xml" "tiger" [sampleTiger1] = .ok g ∧ Inv g := by
  obtain ⟨g, e, d, _⟩ := tigerRead_graph (name := "f.xml") (ns := "tiger") (ss := [sampleTiger1]) ⟨by simpa using sampleTiger1_valid, by decide +kernel, by decide +kernel, by decide +kernel⟩
  exact ⟨g, e, d.inv⟩

/-- **C56 (terminals and nonterminals)**.  `_get_terminals_and_nonterminals` splits the nodes of a graph into those without and those with outgoing edges, both in natural order. -/
theorem c56_terminals_split (g : DG) (hi : Inv g) :
    (∀ n, n ∈ g.terminalsAndNonterminals.1 ↔ g.HasNode n ∧ ¬ g.HasChild n) ∧ (∀ n, n ∈ g.terminalsAndNonterminals.2 ↔ g.HasNode n ∧ g.HasChild n) ∧
      (g.terminalsAndNonterminals.1 ++ g.terminalsAndNonterminals.2).Perm (keys g.nodes) ∧
      g.terminalsAndNonterminals.1.Pairwise (fun a b => naturalLe a b = true) ∧ g.terminalsAndNonterminals.2.Pairwise (fun a b => naturalLe a b = true) := by
  have hmem : ∀ (xs : List NodeId) n, n ∈ naturalSorted xs ↔ n ∈ xs := fun xs n => (pySorted_perm xs).mem_iff
  unfold terminalsAndNonterminals
  refine ⟨?_, ?_, ?_, ?_, ?_⟩
  · intro n
    rw [hmem, List.mem_filter, ← outDegree_pos hi.wf]
    simp only [Bool.not_eq_true', decide_eq_false_iff_not]
    rfl
  · intro n
    rw [hmem, List.mem_filter, ← outDegree_pos hi.wf]
    simp only [decide_eq_true_eq]
    rfl
  · refine (List.Perm.append (pySorted_perm _) (pySorted_perm _)).trans ?_
    refine List.perm_append_comm.trans ?_
    exact List.filter_append_perm _ _
  · exact pySorted_sorted naturalLe_total naturalLe_trans _
  · exact pySorted_sorted naturalLe_total naturalLe_trans _

theorem hasChild_iff {g : DG} {es : List EdgeSpec} (h : EdgesAre g es) (n : NodeId) : g.HasChild n ↔ ∃ e ∈ es, e.source = n := by
  constructor
  · rintro ⟨v, k, a, he⟩
    obtain ⟨e, hm, h1, _⟩ := h.sound n v a ⟨k, he⟩
    exact ⟨e, hm, h1⟩
  · rintro ⟨e, hm, rfl⟩
    obtain ⟨a, ⟨k, hk⟩, _⟩ := h.complete e hm
    exact ⟨_, k, a, hk⟩

/-- **C56 (terminals and nonterminals of a sentence)**.  If the root of a sentence is a nonterminal, every nonterminal has an edge and no terminal has a secondary edge, then `_get_terminals_and_nonterminals` returns the terminals and the nonterminals of the file, each in natural order. -/
theorem c56_terminals_of_sentence_partial (ns : String) (s : TigerS) (hv : s.Valid) (hr : s.root ∉ s.toks) (hvr : NodeId.str (ns ++ ":VROOT") ∉ s.declared)
    (hn : ∀ t ∈ s.nts, t.edges ≠ []) (ht : ∀ t ∈ s.terms, t.secs = []) (g : DG) (hg : tigerSentence ns s = .ok g) :
    (∀ n, n ∈ g.terminalsAndNonterminals.1 ↔ n ∈ s.terms.map TigerT.node) ∧ (∀ n, n ∈ g.terminalsAndNonterminals.2 ↔ n ∈ s.nts.map TigerNt.node) := by
  have hq : qual ns "VROOT" = ns ++ ":VROOT" := by unfold qual; congr 1
  obtain ⟨g', e, d⟩ := tigerSentence_graph (p := ns) hv (hq ▸ hvr)
  rw [e] at hg
  obtain rfl := Except.ok.inj hg
  obtain ⟨h1, h2, _⟩ := c56_terminals_split g' d.inv
  have hdecl : s.root ∈ s.nts.map TigerNt.node := (List.mem_append.1 hv.root).resolve_left hr
  have hnode : ∀ n, g'.HasNode n ↔ n ∈ s.declared := by
    intro n
    rw [d.nodes, topNode, if_neg hr]
    constructor
    · rintro (h | rfl)
      · exact h
      · exact hv.root
    · exact .inl
  have nd := hv.unique
  unfold TigerS.declared at nd
  rw [List.nodup_append] at nd
  have hchild : ∀ n ∈ s.declared, (g'.HasChild n ↔ n ∈ s.nts.map TigerNt.node) := by
    intro n hn'
    rw [hasChild_iff d.edges]
    constructor
    · rintro ⟨e, he, rfl⟩
      unfold sentEdges fileEdges at he
      rw [List.mem_append, List.mem_append] at he
      rcases he with (he | he) | he
      · obtain ⟨t, h, he⟩ := List.mem_flatMap.1 he
        unfold termEdges at he
        rw [ht t h] at he
        cases he
      · obtain ⟨pre, t, post, h, he⟩ := mem_ntsEdges.1 he
        have : e.source = t.node := by
          unfold ntEdges at he
          rw [List.mem_append, List.mem_map, List.mem_map] at he
          rcases he with ⟨_, _, rfl⟩ | ⟨_, _, rfl⟩ <;> rfl
        rw [this]
        exact List.mem_map_of_mem (h ▸ by simp)
      · obtain ⟨m, _, rfl⟩ := List.mem_map.1 he
        show topNode ns s ∈ _
        rw [topNode, if_neg hr]
        exact hdecl
    · intro h
      obtain ⟨t, h', rfl⟩ := List.mem_map.1 h
      obtain ⟨pre, post, hp⟩ := List.append_of_mem h'
      obtain ⟨x, xs, hx⟩ := List.exists_cons_of_ne_nil (hn t h')
      refine ⟨⟨t.node, refNode x, [ns, qual ns "edge"], xmlAttrs ns x ++ [("label", strV (xval x "label")), ("edge_type", strV (if refNode x ∈ s.toks then "spans" else "dominates"))]⟩, ?_, rfl⟩
      unfold sentEdges fileEdges
      rw [List.mem_append, List.mem_append]
      refine .inl (.inr ?_)
      rw [hp]
      refine mem_ntsEdges.2 ⟨pre, t, post, rfl, ?_⟩
      unfold ntEdges
      rw [List.mem_append, List.mem_map]
      exact .inl ⟨x, by rw [hx]; simp, rfl⟩
  constructor
  · intro n
    rw [h1, hnode]
    constructor
    · rintro ⟨h, hc⟩
      rw [hchild n h] at hc
      exact (List.mem_append.1 h).resolve_right hc
    · intro h
      have h' : n ∈ s.declared := List.mem_append_left _ h
      refine ⟨h', ?_⟩
      rw [hchild n h']
      intro hc
      exact nd.2.2 n h n hc rfl
  · intro n
    rw [h2, hnode]
    constructor
    · rintro ⟨h, hc⟩
      exact (hchild n h).1 hc
    · intro h
      have h' : n ∈ s.declared := List.mem_append_right _ h
      exact ⟨h', (hchild n h').2 h⟩

/-! ### subordinate clauses -/

/-- **C56 (subordinate clauses)**.  In every graph, `get_subordinate_clauses` returns the targets of exactly those edges that are labelled MO, RC or SB, begin at a node of the category S and do not end at a token: one result per edge. -/
theorem c56_subordinate_edges (g : DG) (hi : Inv g) :
    ∃ es : List Edge, g.getSubordinateClauses = .ok (es.map (fun e => e.2.1)) ∧ es.Nodup ∧
      ∀ u v k a, (u, v, k, a) ∈ es ↔ g.edgeAttrs u v k = some a ∧ (∃ l ∈ ["MO", "RC", "SB"], find a "tiger:label" = some (.atom (.str l))) ∧
        g.nodeAttr u "tiger:cat" = some (.atom (.str "S")) ∧ g.nodeAttr v (g.ns ++ ":token") = none := by
  have wf := hi.wf
  obtain ⟨es, h1, h2, h3⟩ := selectEdges_values wf "tiger:label" ["MO", "RC", "SB"] (by decide) (by decide) (by decide)
  have hnd : es.Nodup := by
    rw [List.nodup_iff_count_le_one]
    rintro ⟨u, v, k, a⟩
    by_cases hm : (u, v, k, a) ∈ es
    · obtain ⟨he, l, hl, hf⟩ := h2 u v k a hm
      rw [h3 u v k a l he hf]
      exact List.nodup_iff_count_le_one.1 (by decide) l
    · rw [List.count_eq_zero.2 hm]; omega
  have hin : ∀ u v k a, (u, v, k, a) ∈ es ↔ g.edgeAttrs u v k = some a ∧ ∃ l ∈ ["MO", "RC", "SB"], find a "tiger:label" = some (.atom (.str l)) := by
    intro u v k a
    refine ⟨h2 u v k a, ?_⟩
    rintro ⟨he, l, hl, hf⟩
    have := h3 u v k a l he hf
    refine List.count_pos_iff.1 ?_
    rw [this]
    exact List.count_pos_iff.2 hl
  have hq : qual g.ns "token" = g.ns ++ ":token" := by unfold qual; congr 1
  have hstep : ∀ e ∈ es, g.subordinateTarget e = .ok (if g.nodeAttr e.1 "tiger:cat" = some (.atom (.str "S")) ∧ g.nodeAttr e.2.1 (g.ns ++ ":token") = none then [e.2.1] else []) := by
    rintro ⟨u, v, k, a⟩ he
    obtain ⟨hu, hv⟩ := edge_ends wf (h2 u v k a he).1
    obtain ⟨au, hau⟩ := (hasNode_some _ _).1 hu
    obtain ⟨av, hav⟩ := (hasNode_some _ _).1 hv
    have h1 : g.nodeAttr u "tiger:cat" = find au "tiger:cat" := by unfold nodeAttr; rw [hau]; rfl
    have h2 : g.nodeAttr v (g.ns ++ ":token") = find av (g.ns ++ ":token") := by unfold nodeAttr; rw [hav]; rfl
    unfold nodeAttrs at hau hav
    unfold subordinateTarget
    dsimp only
    rw [h1, h2, hau]
    by_cases hc : find au "tiger:cat" = some (.atom (.str "S"))
    · have ht : g.istoken v none = .ok (has av (qual g.ns "token")) := by unfold istoken; rw [hav]; rfl
      rw [hq] at ht
      show (if _ then _ else _) = _
      rw [if_pos hc, ht]
      cases hf : find av (g.ns ++ ":token") with
      | none => simp [has, hf, hc, bind, Except.bind, pure, Except.pure]
      | some x => simp [has, hf, bind, Except.bind, pure, Except.pure]
    · show (if _ then _ else _) = _
      rw [if_neg hc, if_neg (fun h => hc h.1)]
      rfl
  refine ⟨es.filter (fun e => decide (g.nodeAttr e.1 "tiger:cat" = some (.atom (.str "S")) ∧ g.nodeAttr e.2.1 (g.ns ++ ":token") = none)), ?_, hnd.filter _, ?_⟩
  · unfold getSubordinateClauses
    rw [h1]
    have : ∀ xs : List Edge, (∀ e ∈ xs, e ∈ es) → ∃ ys, mapE g.subordinateTarget xs = .ok ys ∧ ys.flatten = (xs.filter (fun e => decide (g.nodeAttr e.1 "tiger:cat" = some (.atom (.str "S")) ∧ g.nodeAttr e.2.1 (g.ns ++ ":token") = none))).map (fun e => e.2.1) := by
      intro xs
      induction xs with
      | nil => intro _; exact ⟨[], rfl, rfl⟩
      | cons x xs ih =>
        intro hx
        obtain ⟨ys, h, hy⟩ := ih (fun e he => hx e (List.mem_cons_of_mem _ he))
        refine ⟨_, by unfold mapE; rw [hstep x (hx x (by simp)), h]; rfl, ?_⟩
        rw [List.flatten_cons, hy, List.filter_cons]
        by_cases hc : g.nodeAttr x.1 "tiger:cat" = some (.atom (.str "S")) ∧ g.nodeAttr x.2.1 (g.ns ++ ":token") = none
        · rw [if_pos hc, if_pos (by simpa using hc)]; rfl
        · rw [if_neg hc, if_neg (by simpa using hc)]; rfl
    obtain ⟨ys, hy, hf⟩ := this es (fun _ h => h)
    show (mapE g.subordinateTarget es >>= _) = _
    rw [hy, ← hf]
    rfl
  · intro u v k a
    rw [List.mem_filter, hin, decide_eq_true_eq, and_assoc]

/-- an `<edge>` or `<secedge>` that marks a subordinate clause: labelled MO, RC or SB, in a nonterminal of the category S, to a nonterminal -/
def SubordinateClause (s : TigerS) (n : NodeId) : Prop :=
  ∃ t ∈ s.nts, find t.attrs "cat" = some "S" ∧ ∃ x ∈ t.edges ++ t.secs, (∃ l ∈ ["MO", "RC", "SB"], find x "label" = some l) ∧ refNode x = n ∧ n ∉ s.terms.map TigerT.node

theorem find_append_xml {p : String} {x : XAttrs} {rest : Attrs} {k : String} (hr : ∀ k' ∈ keys rest, ':' ∉ k'.toList) :
    find (xmlAttrs p x ++ rest) (qual p k) = (find x k).map (fun v => Val.atom (.str v)) := by
  rw [find_append, find_xmlAttrs]
  have : find rest (qual p k) = none := by
    rw [find_eq_none_iff]
    intro h
    exact qual_ne_plain (hr _ h) rfl
  rw [this]
  cases find x k <;> rfl

/-- **C56 (subordinate clauses of a TIGER file)**.  For a file read in the default namespace in which terminals have no category, `get_subordinate_clauses` returns exactly the nonterminals that are connected to a nonterminal of category S by an edge labelled MO, RC or SB. -/
theorem c56_subordinate_clauses_partial (name : String) (ss : List TigerS) (hd : ValidDoc "tiger" ss) (hcat : ∀ s ∈ ss, ∀ t ∈ s.terms, "cat" ∉ keys t.attrs) (g : DG) (hg : tigerRead name "tiger" ss = .ok g) :
    ∃ ns, g.getSubordinateClauses = .ok ns ∧ ∀ n, n ∈ ns ↔ ∃ s ∈ ss, SubordinateClause s n := by
  obtain ⟨g', e, d, _⟩ := tigerRead_graph (name := name) hd
  rw [e] at hg
  obtain rfl := Except.ok.inj hg
  obtain ⟨es, h1, _, h3⟩ := c56_subordinate_edges g' d.inv
  refine ⟨_, h1, ?_⟩
  have hl : "tiger:label" = qual "tiger" "label" := by decide
  have hc : "tiger:cat" = qual "tiger" "cat" := by decide
  have hk : g'.ns ++ ":token" = qual "tiger" "token" := by rw [d.ns]; decide
  have huniq := hd.unique
  intro n
  rw [List.mem_map]
  have hmem : ∀ s ∈ ss, ∀ t ∈ s.nts, t.node ∈ s.declared := fun s _ t ht => List.mem_append_right _ (List.mem_map_of_mem ht)
  have htoken : ∀ s ∈ ss, ∀ m ∈ s.declared, (g'.nodeAttr m (g'.ns ++ ":token") = none ↔ m ∉ s.toks) := by
    intro s hs m hm
    rw [hk, d.attr s hs m hm _ (fun h => qual_ne_plain (by decide) h)]
    have := token_attr (p := "tiger") (hd.valid s hs) hm
    cases hf : sentAttr "tiger" s m (qual "tiger" "token") with
    | none => rw [hf] at this; simpa using this
    | some v => rw [hf] at this; simpa using this
  have hcatNt : ∀ s ∈ ss, ∀ t ∈ s.nts, g'.nodeAttr t.node "tiger:cat" = (find t.attrs "cat").map (fun v => Val.atom (.str v)) := by
    intro s hs t ht
    obtain ⟨f1, f2⟩ := find_nt (hd.valid s hs) ht
    rw [hc, d.attr s hs _ (hmem s hs t ht) _ (fun h => qual_ne_plain (by decide) h), sentAttr, if_neg (fun h => qual_ne_plain (by decide) h), f1, f2]
    dsimp only
    rw [ntAttr, if_neg (fun h => qual_ne_plain (by decide) h), find_xmlAttrs]
  have hcatT : ∀ s ∈ ss, ∀ t ∈ s.terms, g'.nodeAttr t.node "tiger:cat" = none := by
    intro s hs t ht
    rw [hc, d.attr s hs _ (List.mem_append_left _ (List.mem_map_of_mem ht)) _ (fun h => qual_ne_plain (by decide) h), sentAttr, if_neg (fun h => qual_ne_plain (by decide) h), find_term (hd.valid s hs) ht]
    dsimp only
    rw [termAttr, if_neg, find_xmlAttrs, (find_eq_none_iff _ _).2 (hcat s hs t ht)]
    · rfl
    · rintro (h | h)
      · exact qual_ne_plain (by decide) h
      · exact absurd (qual_inj h) (by decide)
  have href : ∀ s ∈ ss, ∀ t ∈ s.nts, ∀ x ∈ t.edges ++ t.secs, refNode x ∈ s.declared := by
    intro s hs t ht x hx
    refine (hd.valid s hs).refs _ ?_
    unfold TigerS.refs
    rw [List.mem_append]
    refine .inr (List.mem_flatMap.2 ⟨t, ht, ?_⟩)
    rw [← List.map_append]
    exact List.mem_map_of_mem hx
  constructor
  · rintro ⟨⟨u, v, k, a⟩, he, rfl⟩
    obtain ⟨ha, ⟨l, hl1, hl2⟩, hcu, htv⟩ := (h3 u v k a).1 he
    obtain ⟨x, hx, rfl, rfl, hm⟩ := d.edges.sound u v a ⟨k, ha⟩
    rw [hm.1 _ (by decide)] at hl2
    obtain ⟨s, hs, hx⟩ := List.mem_flatMap.1 hx
    refine ⟨s, hs, ?_⟩
    unfold sentEdges fileEdges at hx
    simp only [List.mem_append] at hx
    rcases hx with ((hx | hx) | hx) | hx
    · obtain ⟨t, ht, hx⟩ := List.mem_flatMap.1 hx
      obtain ⟨y, _, rfl⟩ := List.mem_map.1 hx
      rw [hcatT s hs t ht] at hcu
      cases hcu
    · obtain ⟨pre, t, post, hp, hx⟩ := mem_ntsEdges.1 hx
      have ht : t ∈ s.nts := hp ▸ by simp
      have key : ∃ y ∈ t.edges ++ t.secs, x.source = t.node ∧ x.target = refNode y ∧ find x.attrs "tiger:label" = (find y "label").map (fun v => Val.atom (.str v)) := by
        unfold ntEdges at hx
        rw [List.mem_append, List.mem_map, List.mem_map] at hx
        rcases hx with ⟨y, hy, rfl⟩ | ⟨y, hy, rfl⟩
        · exact ⟨y, List.mem_append_left _ hy, rfl, rfl, by
          dsimp only; rw [hl]; exact find_append_xml (by simp [keys])⟩
        · exact ⟨y, List.mem_append_right _ hy, rfl, rfl, by
          dsimp only; rw [hl]; exact find_append_xml (by simp [keys])⟩
      obtain ⟨y, hy, e1, e2, e3⟩ := key
      rw [e1, hcatNt s hs t ht] at hcu
      rw [e3] at hl2
      refine ⟨t, ht, ?_, y, hy, ⟨l, hl1, ?_⟩, e2.symm, ?_⟩
      · cases hf : find t.attrs "cat" with
        | none => rw [hf] at hcu; cases hcu
        | some v => rw [hf] at hcu; simpa using hcu
      · cases hf : find y "label" with
        | none => rw [hf] at hl2; cases hl2
        | some v => rw [hf] at hl2; simpa using hl2
      · show x.target ∉ s.toks
        exact (htoken s hs x.target (e2 ▸ href s hs t ht y hy)).1 htv
    · obtain ⟨m, _, rfl⟩ := List.mem_map.1 hx
      exact absurd hl2 (by simp [find])
    · simp only [List.mem_singleton] at hx
      subst hx
      exact absurd hl2 (by simp [sentenceEdge, find])
  · rintro ⟨s, hs, t, ht, hS, y, hy, ⟨l, hl1, hl2⟩, rfl, hn⟩
    obtain ⟨pre, post, hp⟩ := List.append_of_mem ht
    have key : ∃ x ∈ ntEdges "tiger" s.toks ([] ++ pre) t, x.source = t.node ∧ x.target = refNode y ∧ find x.attrs "tiger:label" = (find y "label").map (fun v => Val.atom (.str v)) := by
      unfold ntEdges
      rcases List.mem_append.1 hy with hy | hy
      · exact ⟨_, List.mem_append_left _ (List.mem_map_of_mem hy), rfl, rfl, by
          dsimp only; rw [hl]; exact find_append_xml (by simp [keys])⟩
      · exact ⟨_, List.mem_append_right _ (List.mem_map_of_mem hy), rfl, rfl, by
          dsimp only; rw [hl]; exact find_append_xml (by simp [keys])⟩
    obtain ⟨x, hx, e1, e2, e3⟩ := key
    have hxd : x ∈ docEdges "tiger" ss := by
      refine List.mem_flatMap.2 ⟨s, hs, List.mem_append_left _ (List.mem_append_left _ (List.mem_append_right _ ?_))⟩
      exact mem_ntsEdges.2 ⟨pre, t, post, hp, hx⟩
    obtain ⟨a, ⟨k, ha⟩, hm⟩ := d.edges.complete x hxd
    refine ⟨(x.source, x.target, k, a), (h3 _ _ _ _).2 ⟨ha, ⟨l, hl1, ?_⟩, ?_, ?_⟩, e2⟩
    · rw [hm.1 _ (by decide), e3, hl2]; rfl
    · rw [e1, hcatNt s hs t ht, hS]; rfl
    · rw [e2]
      exact (htoken s hs _ (href s hs t ht y hy)).2 hn

example : ((tigerRead "f.xml" "tiger" [sampleTiger1, sampleTiger2]).toOption.map getSubordinateClauses) = some (.ok [.str "s1_501"]) := by decide +kernel

example : ∀ s ∈ [sampleTiger1, sampleTiger2], ∀ t ∈ s.terms, "cat" ∉ keys t.attrs := by decide +kernel

/-- a clause with a subject that is a single word -/
def sampleTiger6 : TigerS :=
  ⟨[("id", "s1")], [("root", "s1_500")], [⟨[("id", "s1_1"), ("word", "Sie"), ("pos", "PPER")], []⟩, ⟨[("id", "s1_2"), ("word", "lacht"), ("pos", "VVFIN")], []⟩],
    [⟨[("id", "s1_500"), ("cat", "S")], [[("idref", "s1_1"), ("label", "SB")], [("idref", "s1_2"), ("label", "HD")]], []⟩]⟩

/-- counterexample for the full statement of C56: with a namespace other than "tiger" words count as subordinate clauses, since the reader calls their token strings `tiger:token` in any case -/
theorem c56_fails_other_namespace : ((tigerRead "f.xml" "tiger" [sampleTiger6]).toOption.map getSubordinateClauses) = some (.ok []) ∧
    ((tigerRead "f.xml" "syntax" [sampleTiger6]).toOption.map getSubordinateClauses) = some (.ok [.str "s1_1"]) := by decide +kernel

example : sampleTiger6.Valid ∧ sampleTiger6.root ∉ sampleTiger6.toks ∧ (∀ t ∈ sampleTiger6.nts, t.edges ≠ []) ∧ ∀ t ∈ sampleTiger6.terms, t.secs = [] := by
  refine ⟨⟨by decide, by unfold XmlOk; decide, by unfold XmlOk; decide, by decide, by decide, by decide, ?_, by decide⟩, by decide, by decide, by decide⟩
  intro pre t post h h2
  unfold sampleTiger6 at h
  cases pre with
  | nil => injection h with h _; subst h; exact absurd rfl h2
  | cons x pre => injection h with _ h; cases pre <;> cases h

/-- counterexample for the full statement of C56: a terminal with a secondary edge counts as nonterminal -/
theorem c56_fails_terminal_secedge : ((tigerSentence "tiger" sampleTiger1).toOption.map terminalsAndNonterminals) = some ([.str "s1_1", .str "s1_10"], [.str "s1_2", .str "s1_500", .str "s1_501"]) := by decide +kernel

/-- counterexample for the full statement of C56: the virtual root of a one-token sentence counts as a terminal -/
theorem c56_fails_virtual_root : ((tigerSentence "tiger" (sampleTiger4 "s1")).toOption.map (fun g => g.terminalsAndNonterminals.2)) = some [] := by decide +kernel

end DG
end Dg
