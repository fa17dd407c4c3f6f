import Verif.Lemmas.PtbRead
import Verif.Props.C60Tree

/-! # C61: Penn Treebank files -/

namespace Dg
open Dict
namespace DG

theorem ptbWord_eq (w : List Char) : ptbUnescape w = ptbWord w := by
  unfold ptbUnescape ptbWord ptbBrackets
  simp only [List.find?_cons, List.find?_nil]
  by_cases h1 : w = ['-', 'L', 'R', 'B', '-']
  · subst h1; decide
  by_cases h2 : w = ['-', 'R', 'R', 'B', '-']
  · subst h2; decide
  by_cases h3 : w = ['-', 'L', 'S', 'B', '-']
  · subst h3; decide
  by_cases h4 : w = ['-', 'R', 'S', 'B', '-']
  · subst h4; decide
  by_cases h5 : w = ['-', 'L', 'C', 'B', '-']
  · subst h5; decide
  by_cases h6 : w = ['-', 'R', 'C', 'B', '-']
  · subst h6; decide
  rw [if_neg h1, if_neg h2, if_neg h3, if_neg h4, if_neg h5, if_neg h6]
  simp only [decide_eq_false (Ne.symm h1), decide_eq_false (Ne.symm h2), decide_eq_false (Ne.symm h3), decide_eq_false (Ne.symm h4), decide_eq_false (Ne.symm h5), decide_eq_false (Ne.symm h6)]

/-- the graph before the first sentence -/
def ptbRootGraph (name ns : String) : DG := ⟨name, ns, .int 0, [(.int 0, [("label", .atom (.str (qual ns "root_node"))), ("layers", .set [.str ns])])], [(.int 0, [])], [], [], none, none⟩

theorem ptbStart_eq (name ns : String) : ptbStart name ns = .ok (ptbRootGraph name ns) := rfl

theorem ptbRootGraph_kd (name ns : String) (u v : NodeId) : (ptbRootGraph name ns).kd? u v = none := by
  unfold kd? ptbRootGraph
  simp only [find]
  split <;> rfl

theorem ptbRootGraph_attrs (name ns : String) (n : NodeId) : find (ptbRootGraph name ns).nodes n = if NodeId.int 0 = n then some [("label", .atom (.str (qual ns "root_node"))), ("layers", .set [.str ns])] else none := by
  unfold ptbRootGraph
  simp only [find]

theorem ptbRootGraph_state (name ns : String) : DisState ns (ptbRootGraph name ns) := by
  refine ⟨⟨⟨by simp [ptbRootGraph, keys], rfl, ?_, ?_, ?_, ?_⟩, ?_, ?_⟩, ?_, rfl⟩
  · intro u nb h
    simp only [ptbRootGraph, find] at h
    split at h
    · obtain rfl := Option.some.inj h
      simp [keys]
    · cases h
  · intro u v kd h; rw [ptbRootGraph_kd] at h; cases h
  · intro u v kd h; rw [ptbRootGraph_kd] at h; cases h
  · intro u v kd h; rw [ptbRootGraph_kd] at h; cases h
  · refine ⟨?_, ?_⟩
    · intro n a h
      rw [show (ptbRootGraph name ns).nodeAttrs n = find (ptbRootGraph name ns).nodes n from rfl, ptbRootGraph_attrs] at h
      split at h
      · obtain rfl := Option.some.inj h
        simp [keys]
      · cases h
    · intro u v k a h
      unfold edgeAttrs at h
      rw [ptbRootGraph_kd] at h
      cases h
  · intro u v k a h
    unfold edgeAttrs at h
    rw [ptbRootGraph_kd] at h
    cases h
  · intro n a h
    rw [show (ptbRootGraph name ns).nodeAttrs n = find (ptbRootGraph name ns).nodes n from rfl, ptbRootGraph_attrs] at h
    split at h
    · obtain rfl := Option.some.inj h
      exact ⟨_, rfl, by simp, by simp⟩
    · cases h

theorem ptbRowCalls_ok (ns : String) (r : PtbRow) (has : NodeId → Prop) : ScriptOk has (ptbRowCalls ns r) := by
  have q1 : ∀ a, qual ns a ≠ "layers" := qual_layers ns
  have q2 : "label" ≠ qual ns "cat" := fun h => qual_ne_plain (by decide) h.symm
  have hbody : ∀ has : NodeId → Prop, has (.int r.id) → ScriptOk has (ptbBody ns r.id r.tree) := by
    intro has h
    unfold ptbBody
    refine ⟨⟨h, by decide⟩, ?_⟩
    cases r.tree with
    | tok pos w => exact ⟨⟨.inl h, by decide⟩, ⟨.inl (.inl h), q1 _⟩, ⟨.inl (.inl (.inl h)), q1 _⟩, trivial, trivial⟩
    | phrase c ks => trivial
  unfold ptbRowCalls
  rw [scriptOk_append]
  unfold ptbEntry
  by_cases hp : r.parent = 0
  · rw [if_pos hp]
    refine ⟨⟨trivial, ⟨by simp, by simp [keys]⟩, trivial⟩, hbody _ (.inr ⟨_, List.mem_cons_of_mem _ (List.mem_singleton.2 rfl), .inr rfl⟩)⟩
  · rw [if_neg hp]
    refine ⟨⟨?_, ⟨by simp, by simp [keys]⟩, trivial⟩, hbody _ (.inr ⟨_, List.mem_cons_of_mem _ (List.mem_singleton.2 rfl), .inr rfl⟩)⟩
    split
    · exact ⟨by simp, by simp [keys, q2]⟩
    · exact ⟨by simp, by simp [keys]⟩

/-- all calls -/
def ptbCalls (ns : String) (precedence : Bool) (rows : List PtbRow) : List Instr :=
  rows.flatMap (ptbRowCalls ns) ++ (if precedence then edgeCalls (precEdges ns (.int 0) ((ptbTokens rows).map Prod.fst)) else [])

theorem ptbRows_tokens (ns : String) (rows : List PtbRow) : (rows.flatMap (ptbRowCalls ns)).flatMap Instr.newTokens = (ptbTokens rows).map Prod.fst := by
  unfold ptbTokens
  rw [List.flatMap_assoc]
  induction rows with
  | nil => rfl
  | cons r rows ih =>
    rw [List.flatMap_cons, ih, List.filterMap_cons]
    obtain ⟨p, n, t⟩ := r
    have he : (ptbEntry ns ⟨p, n, t⟩).flatMap Instr.newTokens = [] := by
      unfold ptbEntry
      split
      · rfl
      · split <;> rfl
    unfold ptbRowCalls
    rw [List.flatMap_append, he]
    cases t <;> rfl

theorem ptbRows_sentences (ns : String) (rows : List PtbRow) : (rows.flatMap (ptbRowCalls ns)).flatMap Instr.newSentences = (rows.filter (fun r => decide (r.parent = 0))).map PtbRow.node := by
  rw [List.flatMap_assoc]
  induction rows with
  | nil => rfl
  | cons r rows ih =>
    rw [List.flatMap_cons, ih]
    obtain ⟨p, n, t⟩ := r
    have hb : (ptbBody ns n t).flatMap Instr.newSentences = [] := by
      unfold ptbBody
      cases t <;> rfl
    unfold ptbRowCalls
    rw [List.flatMap_append, hb, List.append_nil]
    unfold ptbEntry
    by_cases hp : p = 0
    · rw [if_pos hp, List.filter_cons_of_pos (by simp [hp])]; rfl
    · rw [if_neg hp, List.filter_cons_of_neg (by simp [hp])]
      simp only [List.flatMap_cons, List.flatMap_nil]
      split <;> rfl

theorem ptbRows_spec (ns : String) (rows : List PtbRow) : (rows.flatMap (ptbRowCalls ns)).filterMap Instr.spec = rows.map (PtbRow.edge ns) := by
  rw [flatMap_filterMap]
  induction rows with
  | nil => rfl
  | cons r rows ih =>
    rw [List.flatMap_cons, ih]
    obtain ⟨p, n, t⟩ := r
    have hb : (ptbBody ns n t).filterMap Instr.spec = [] := by
      unfold ptbBody
      cases t <;> rfl
    unfold ptbRowCalls
    rw [List.filterMap_append, hb, List.append_nil]
    unfold ptbEntry
    by_cases hp : p = 0
    · subst hp; rfl
    · rw [if_neg hp]
      simp only
      split <;> rfl

/-- reading a file -/
theorem ptbRead_built (name ns : String) (precedence : Bool) (limit : Option Nat) (ignore : Bool) {ts : List Syn} {sents : List PTree} (hl : ptbLimit limit sents = ts.map Syn.ptree) (hok : ∀ t ∈ ts, t.Ok) (hp : ∀ t ∈ ts, t.IsPhrase) :
    (precedence = true → 2 ≤ (ptbTokens (Syn.rowsDoc ignore 1 ts)).length) → ∃ g, ptbRead name ns precedence limit ignore sents = .ok g ∧ Built (ptbRootGraph name ns) (ptbCalls ns precedence (Syn.rowsDoc ignore 1 ts)) g := by
  intro h2
  unfold ptbRead
  rw [ptbStart_eq, hl]
  simp only [except_bind_ok]
  have hs := ptbRootGraph_state name ns
  obtain ⟨m, em⟩ := ptbSentences_eq ignore ts hok hp 1 (ptbRootGraph name ns) (by omega) hs.ns rfl
  obtain ⟨g1, e1, b1⟩ := execs_built ((Syn.rowsDoc ignore 1 ts).flatMap (ptbRowCalls ns)) hs.inv hs.layered (scriptOk_flatMap (fun r _ => ptbRowCalls_ok ns r _))
  rw [em, e1]
  simp only [Except.map, except_bind_ok]
  have htok : g1.tokens = (ptbTokens (Syn.rowsDoc ignore 1 ts)).map Prod.fst := by
    rw [b1.tokens, ptbRows_tokens]; rfl
  have hroot : g1.root = .int 0 := b1.root
  have s1 : DisState ns g1 := ⟨b1.inv, b1.layered, b1.ns⟩
  unfold ptbCalls
  cases precedence with
  | false => exact ⟨g1, rfl, by simpa using b1⟩
  | true =>
    obtain ⟨g2, e2, e3⟩ := precedence_execs s1 (by rw [htok, List.length_map]; exact h2 rfl)
    refine ⟨g2, by rw [if_pos rfl]; exact e2, ?_⟩
    rw [htok, hroot] at e3
    rw [if_pos rfl]
    obtain ⟨g2', e4, b2⟩ := execs_built (g := g1) (edgeCalls (precEdges ns (.int 0) ((ptbTokens (Syn.rowsDoc ignore 1 ts)).map Prod.fst))) s1.inv s1.layered (edgeCalls_ok (by
      intro e he
      obtain ⟨p, _, rfl⟩ := List.mem_map.1 he
      exact ⟨by simp [precEdge], by simp [precEdge, keys]⟩) _)
    rw [e3] at e4
    obtain rfl := Except.ok.inj e4
    exact built_append hs.inv hs.layered b1 b2


theorem ptbRow_write {ns : String} {r : PtbRow} {m : NodeId} (hm : m ≠ r.node) {k : String} {i : Instr} (hi : i ∈ ptbRowCalls ns r) : i.write m k = none := by
  unfold PtbRow.node at hm
  unfold ptbRowCalls ptbEntry ptbBody at hi
  rcases List.mem_append.1 hi with hi | hi
  · split at hi
    · simp only [List.mem_cons, List.not_mem_nil, or_false] at hi
      rcases hi with rfl | rfl <;> rfl
    · simp only [List.mem_cons, List.not_mem_nil, or_false] at hi
      rcases hi with rfl | rfl
      · split <;> simp [Instr.write, hm]
      · rfl
  · rcases List.mem_cons.1 hi with rfl | hi
    · simp [Instr.write, hm]
    · split at hi
      · simp only [List.mem_cons, List.not_mem_nil, or_false] at hi
        rcases hi with rfl | rfl | rfl | rfl <;> simp [Instr.write, hm]
      · cases hi

theorem ptbRows_write (ns : String) {rows : List PtbRow} (hn : rows.Pairwise (fun a b => a.id < b.id)) {r : PtbRow} (hr : r ∈ rows) (k : String) : lastWrite r.node k (rows.flatMap (ptbRowCalls ns)) = lastWrite r.node k (ptbRowCalls ns r) := by
  have hnode : ∀ a b : PtbRow, a.id ≠ b.id → a.node ≠ b.node := by
    intro a b h e
    unfold PtbRow.node at e
    injection e with e
    exact h (Int.ofNat_inj.1 e)
  induction rows with
  | nil => cases hr
  | cons q rows ih =>
    obtain ⟨h1, h2⟩ := List.pairwise_cons.1 hn
    rw [List.flatMap_cons, lastWrite_append]
    rcases List.mem_cons.1 hr with rfl | hr
    · rw [lastWrite_none (s := rows.flatMap (ptbRowCalls ns)), Option.none_or]
      intro i hi
      obtain ⟨q, hq, hi⟩ := List.mem_flatMap.1 hi
      exact ptbRow_write (hnode _ _ (by have := h1 q hq; omega)) hi
    · rw [ih h2 hr, lastWrite_none (s := ptbRowCalls ns q), Option.or_none]
      intro i hi
      exact ptbRow_write (hnode _ _ (by have := h1 r hr; omega)) hi

theorem edgeCalls_write (es : List EdgeSpec) (m : NodeId) (k : String) : lastWrite m k (edgeCalls es) = none := by
  refine lastWrite_none ?_
  intro i hi
  unfold edgeCalls at hi
  obtain ⟨e, _, rfl⟩ := List.mem_map.1 hi
  rfl

theorem ptbCalls_write (ns : String) (precedence : Bool) {rows : List PtbRow} (hn : rows.Pairwise (fun a b => a.id < b.id)) {r : PtbRow} (hr : r ∈ rows) (k : String) : lastWrite r.node k (ptbCalls ns precedence rows) = lastWrite r.node k (ptbRowCalls ns r) := by
  unfold ptbCalls
  rw [lastWrite_append, ptbRows_write ns hn hr]
  cases precedence with
  | false => rfl
  | true => rw [if_pos rfl, edgeCalls_write]; rfl

theorem ptbRootGraph_attr (name ns : String) (m : NodeId) (hm : m ≠ .int 0) (k : String) : (ptbRootGraph name ns).nodeAttr m k = none := by
  have e : (ptbRootGraph name ns).nodeAttr m k = (find (ptbRootGraph name ns).nodes m).bind (find · k) := rfl
  rw [e, ptbRootGraph_attrs, if_neg (Ne.symm hm)]
  rfl

theorem mem_ptbTokens {rows : List PtbRow} {x : NodeId × List Char × List Char} : x ∈ ptbTokens rows ↔ ∃ r ∈ rows, r.tree = .tok x.2.1 x.2.2 ∧ x.1 = r.node := by
  unfold ptbTokens
  rw [List.mem_filterMap]
  constructor
  · rintro ⟨r, hr, h⟩
    refine ⟨r, hr, ?_⟩
    unfold PtbRow.token at h
    cases ht : r.tree with
    | tok pos w =>
      rw [ht] at h
      obtain rfl := Option.some.inj h
      exact ⟨rfl, rfl⟩
    | phrase c ks => rw [ht] at h; cases h
  · rintro ⟨r, hr, ht, hx⟩
    refine ⟨r, hr, ?_⟩
    unfold PtbRow.token
    rw [ht]
    obtain ⟨a, b, c⟩ := x
    simp only at hx
    rw [hx]
    rfl

theorem prec_ends {ns : String} {root : NodeId} {toks : List NodeId} {e : EdgeSpec} (h : e ∈ precEdges ns root toks) : (e.source = root ∨ e.source ∈ toks) ∧ e.target ∈ toks := by
  unfold precEdges at h
  obtain ⟨p, hp, rfl⟩ := List.mem_map.1 h
  obtain ⟨h1, h2⟩ := List.of_mem_zip (a := p.1) (b := p.2) hp
  exact ⟨List.mem_cons.1 h1, h2⟩

/-- the ends of the edges of the calls -/
theorem ptb_edge_call {ns : String} {precedence : Bool} {rows : List PtbRow} {u v : NodeId} {ls : List String} {d : Attrs} (h : Instr.edge u v ls d ∈ ptbCalls ns precedence rows) :
    (∃ r ∈ rows, u = .int r.parent ∧ v = r.node) ∨ ((u = .int 0 ∨ u ∈ (ptbTokens rows).map Prod.fst) ∧ v ∈ (ptbTokens rows).map Prod.fst) := by
  rw [mem_spec] at h
  unfold ptbCalls at h
  rw [List.filterMap_append, ptbRows_spec] at h
  rcases List.mem_append.1 h with h | h
  · obtain ⟨r, hr, e⟩ := List.mem_map.1 h
    unfold PtbRow.edge at e
    injection e with e1 e2
    exact .inl ⟨r, hr, e1.symm, e2.symm⟩
  · cases precedence with
    | false => cases h
    | true =>
      rw [if_pos rfl, edgeCalls_spec] at h
      exact .inr (prec_ends h)

theorem ptb_node_call {ns : String} {precedence : Bool} {rows : List PtbRow} {n : NodeId} {ls : List String} {d : Attrs} : Instr.node n ls d ∈ ptbCalls ns precedence rows ↔
    ∃ r ∈ rows, r.parent ≠ 0 ∧ n = r.node ∧ ((1 < ptbLen r.tree ∧ ls = [ns, qual ns "syntax"] ∧ d = [("label", strVal (ptbUnescape r.tree.label)), (qual ns "cat", strVal (ptbUnescape r.tree.label))]) ∨ (¬ 1 < ptbLen r.tree ∧ ls = [ns] ∧ d = [("label", strVal (ptbUnescape r.tree.label))])) := by
  unfold ptbCalls
  rw [List.mem_append]
  have hprec : Instr.node n ls d ∉ (if precedence then edgeCalls (precEdges ns (.int 0) ((ptbTokens rows).map Prod.fst)) else []) := by
    intro h
    split at h
    · unfold edgeCalls at h
      obtain ⟨e, _, h⟩ := List.mem_map.1 h
      cases h
    · cases h
  simp only [hprec, or_false, List.mem_flatMap]
  refine exists_congr fun r => and_congr_right fun _ => ?_
  unfold ptbRowCalls
  rw [List.mem_append]
  have hb : Instr.node n ls d ∉ ptbBody ns r.id r.tree := by
    unfold ptbBody
    cases r.tree <;> simp
  simp only [hb, or_false]
  unfold ptbEntry
  by_cases hp : r.parent = 0
  · simp [hp]
  · rw [if_neg hp]
    by_cases hl : 1 < ptbLen r.tree
    · simp [hl, hp, PtbRow.node]
    · simp [hl, hp, PtbRow.node]

/-- the first call with a sentence is an `add_edge`, with another node it is an `add_node` -/
theorem ptbRows_implicit {ns : String} {s : List Instr} : ∀ {rows : List PtbRow}, rows.Pairwise (fun a b => a.id < b.id) → (∀ r ∈ rows, r.parent < r.id) → ∀ {r : PtbRow}, r ∈ rows → (Implicit r.node (rows.flatMap (ptbRowCalls ns) ++ s) ↔ r.parent = 0) := by
  intro rows
  induction rows with
  | nil => intro _ _ r hr; cases hr
  | cons q rows ih =>
    intro hn hp r hr
    obtain ⟨h1, h2⟩ := List.pairwise_cons.1 hn
    have hq := hp q (by simp)
    have skip : ∀ (m : NodeId) (l rest : List Instr), (∀ i ∈ l, ¬ i.Mentions m) → (Implicit m (l ++ rest) ↔ Implicit m rest) := by
      intro m l rest hl
      induction l with
      | nil => rfl
      | cons i l ihl =>
        rw [List.cons_append, Implicit, ihl (fun j hj => hl j (List.mem_cons_of_mem _ hj))]
        have := hl i (by simp)
        tauto
    rw [List.flatMap_cons, List.append_assoc]
    rcases List.mem_cons.1 hr with rfl | hr
    · unfold ptbRowCalls ptbEntry
      by_cases hp0 : r.parent = 0
      · rw [if_pos hp0]
        simp [Implicit, Instr.Mentions, Instr.IsEdge, PtbRow.node, hp0]
      · rw [if_neg hp0]
        simp only [hp0, iff_false]
        split <;> simp [Implicit, Instr.Mentions, Instr.IsEdge, PtbRow.node]
    · rw [skip, ih h2 (fun r' hr' => hp r' (List.mem_cons_of_mem _ hr')) hr]
      intro i hi hm
      have hlt := h1 r hr
      have h3 : r.node ≠ .int q.id := by
        unfold PtbRow.node
        intro e
        injection e with e
        omega
      have h4 : r.node ≠ .int q.parent := by
        unfold PtbRow.node
        intro e
        injection e with e
        omega
      have h5 : r.node ≠ .int 0 := by
        unfold PtbRow.node
        intro e
        injection e with e
        omega
      unfold ptbRowCalls ptbEntry ptbBody at hi
      rcases List.mem_append.1 hi with hi | hi
      · split at hi
        · simp only [List.mem_cons, List.not_mem_nil, or_false] at hi
          rcases hi with rfl | rfl
          · exact hm
          · rcases hm with hm | hm
            · exact h5 hm
            · exact h3 hm
        · simp only [List.mem_cons, List.not_mem_nil, or_false] at hi
          rcases hi with rfl | rfl
          · split at hm <;> exact h3 hm
          · rcases hm with hm | hm
            · exact h4 hm
            · exact h3 hm
      · rcases List.mem_cons.1 hi with rfl | hi
        · exact hm
        · split at hi
          · simp only [List.mem_cons, List.not_mem_nil, or_false] at hi
            rcases hi with rfl | rfl | rfl | rfl <;> exact hm
          · cases hi


theorem PtbRows.lt {ig : Bool} {ts : List Syn} {rows : List PtbRow} (h : PtbRows ig ts rows) : ∀ r ∈ rows, r.parent < r.id := by
  intro r hr
  rcases h.parents r hr with h1 | ⟨q, _, h1, h2⟩
  · have := h.positive r hr; omega
  · omega

theorem PtbRows.phrase {ig : Bool} {ts : List Syn} {rows : List PtbRow} (h : PtbRows ig ts rows) (hp : ∀ t ∈ ts, t.IsPhrase) {r : PtbRow} (hr : r ∈ rows) (h0 : r.parent = 0) : r.tree.IsPhrase := by
  refine hp _ ?_
  rw [← h.sentences]
  exact List.mem_map_of_mem (List.mem_filter.2 ⟨hr, by simp [h0]⟩)

/-- the content of the graph -/
theorem ptb_content {name ns : String} {precedence ig : Bool} {ts : List Syn} {rows : List PtbRow} (h : PtbRows ig ts rows) (hp : ∀ t ∈ ts, t.IsPhrase) {g : DG} (b : Built (ptbRootGraph name ns) (ptbCalls ns precedence rows) g) : PtbContent ns precedence rows g := by
  have hne : ∀ r ∈ rows, r.node ≠ .int 0 := by
    intro r hr e
    have := h.positive r hr
    unfold PtbRow.node at e
    injection e with e
    omega
  have hattr : ∀ r ∈ rows, ∀ k, k ≠ "layers" → g.nodeAttr r.node k = lastWrite r.node k (ptbRowCalls ns r) := by
    intro r hr k hk
    rw [b.attr _ _ hk, ptbRootGraph_attr _ _ _ (hne r hr), Option.or_none, ptbCalls_write ns precedence h.numbers hr]
  have q1 : "label" ≠ qual ns "token" := fun h => qual_ne_plain (by decide) h.symm
  have q2 : "label" ≠ qual ns "pos" := fun h => qual_ne_plain (by decide) h.symm
  have q3 : "label" ≠ qual ns "cat" := fun h => qual_ne_plain (by decide) h.symm
  have q4 : qual ns "token" ≠ qual ns "pos" := fun h => absurd (qual_inj h) (by decide)
  have q5 : qual ns "token" ≠ qual ns "cat" := fun h => absurd (qual_inj h) (by decide)
  have q6 : qual ns "pos" ≠ qual ns "cat" := fun h => absurd (qual_inj h) (by decide)
  have htokRow : ∀ m ∈ (ptbTokens rows).map Prod.fst, ∃ r ∈ rows, m = r.node := by
    intro m hm
    obtain ⟨x, hx, rfl⟩ := List.mem_map.1 hm
    obtain ⟨r, hr, _, e⟩ := mem_ptbTokens.1 hx
    exact ⟨r, hr, e⟩
  have hparent : ∀ r ∈ rows, (NodeId.int r.parent : NodeId) = .int 0 ∨ ∃ q ∈ rows, NodeId.int r.parent = q.node := by
    intro r hr
    rcases h.parents r hr with h1 | ⟨q, hq, h1, _⟩
    · left; rw [h1]; rfl
    · right; exact ⟨q, hq, by unfold PtbRow.node; rw [h1]⟩
  have hroot : ∀ m, (ptbRootGraph name ns).HasNode m ↔ m = .int 0 := by
    intro m
    rw [hasNode_some]
    rw [show (ptbRootGraph name ns).nodeAttrs m = find (ptbRootGraph name ns).nodes m from rfl, ptbRootGraph_attrs]
    by_cases e : NodeId.int 0 = m
    · simp [e]
    · simp [e, Ne.symm e]
  have hrow : ∀ r ∈ rows, ∃ ls d, Instr.edge (.int r.parent) r.node ls d ∈ ptbCalls ns precedence rows := by
    intro r hr
    refine ⟨[ns], [("edge_type", .atom (.str "dominates"))], ?_⟩
    rw [mem_spec]
    unfold ptbCalls
    rw [List.filterMap_append, ptbRows_spec]
    exact List.mem_append_left _ (List.mem_map_of_mem (f := PtbRow.edge ns) hr)
  have hrl : ∀ m l, (ptbRootGraph name ns).NodeLayer m l ↔ m = .int 0 ∧ l = .str ns := by
    intro m l
    rw [nodeLayer_iff]
    have e : (ptbRootGraph name ns).nodeAttr m "layers" = (find (ptbRootGraph name ns).nodes m).bind (find · "layers") := rfl
    rw [e, ptbRootGraph_attrs]
    by_cases hm : NodeId.int 0 = m
    · subst hm
      simp [find]
    · simp [hm, Ne.symm hm]
  have hgive : ∀ m l, (∃ i ∈ ptbCalls ns precedence rows, i.GivesLayer m l) ↔ ∃ r ∈ rows, r.parent ≠ 0 ∧ m = r.node ∧ (l = .str ns ∨ (l = .str (qual ns "syntax") ∧ 1 < ptbLen r.tree)) := by
    intro m l
    constructor
    · rintro ⟨i, hi, hg⟩
      cases i with
      | node n ls d =>
        obtain ⟨rfl, hl⟩ := hg
        obtain ⟨r, hr, h0, e, hc⟩ := ptb_node_call.1 hi
        refine ⟨r, hr, h0, e, ?_⟩
        rcases hc with ⟨h1, rfl, _⟩ | ⟨h1, rfl, _⟩
        · simp only [List.map_cons, List.map_nil, List.mem_cons, List.not_mem_nil, or_false] at hl
          exact hl.imp id (fun h => ⟨h, h1⟩)
        · simp only [List.map_cons, List.map_nil, List.mem_cons, List.not_mem_nil, or_false] at hl
          exact .inl hl
      | _ => exact hg.elim
    · rintro ⟨r, hr, h0, rfl, hl⟩
      by_cases h1 : 1 < ptbLen r.tree
      · refine ⟨_, ptb_node_call.2 ⟨r, hr, h0, rfl, .inl ⟨h1, rfl, rfl⟩⟩, rfl, ?_⟩
        rcases hl with rfl | ⟨rfl, _⟩ <;> simp
      · refine ⟨_, ptb_node_call.2 ⟨r, hr, h0, rfl, .inr ⟨h1, rfl, rfl⟩⟩, rfl, ?_⟩
        rcases hl with rfl | ⟨_, h2⟩
        · simp
        · exact absurd h2 h1
  have hlen : ∀ r : PtbRow, 1 < ptbLen r.tree ↔ 2 ≤ r.tree.parts.length := by
    intro r
    cases r.tree <;> simp only [ptbLen, Syn.parts, List.length_nil] <;> omega
  have hinj : ∀ r ∈ rows, ∀ q ∈ rows, r.node = q.node → r = q := by
    intro r hr q hq e
    have hd : rows.Pairwise (fun a b => a.node ≠ b.node) := h.numbers.imp (fun {a b} hab e => by
      unfold PtbRow.node at e
      injection e with e
      omega)
    exact List.inj_on_of_nodup_map (f := PtbRow.node) (List.pairwise_map.2 hd) hr hq e
  refine ⟨b.ns, b.root, ?_, ?_, ?_, ?_, ?_, ?_, ?_, ?_, ?_⟩
  · intro m
    rw [b.nodes, hroot]
    refine or_congr_right' fun hm0 => ?_
    constructor
    · rintro ⟨i, hi, hm⟩
      cases i with
      | node n ls d =>
        obtain ⟨r, hr, _, e, _⟩ := ptb_node_call.1 hi
        exact ⟨r, hr, hm.trans e⟩
      | edge u v ls d =>
        rcases ptb_edge_call hi with ⟨r, hr, hu, hv⟩ | ⟨hu, hv⟩
        · rcases hm with rfl | rfl
          · rcases hparent r hr with h0 | ⟨q, hq, e⟩
            · exact absurd (hu.trans h0) hm0
            · exact ⟨q, hq, hu.trans e⟩
          · exact ⟨r, hr, hv⟩
        · rcases hm with rfl | rfl
          · rcases hu with h0 | hu
            · exact absurd h0 hm0
            · exact htokRow _ hu
          · exact htokRow _ hv
      | _ => exact hm.elim
    · rintro ⟨r, hr, rfl⟩
      obtain ⟨ls, d, hi⟩ := hrow r hr
      exact ⟨_, hi, .inr rfl⟩
  · rw [b.tokens]
    unfold ptbCalls
    rw [List.flatMap_append, ptbRows_tokens]
    cases precedence with
    | false => simp [ptbRootGraph]
    | true => rw [if_pos rfl, edgeCalls_tokens]; simp [ptbRootGraph]
  · rw [b.sentences]
    unfold ptbCalls
    rw [List.flatMap_append, ptbRows_sentences]
    cases precedence with
    | false => simp [ptbRootGraph]
    | true =>
      rw [if_pos rfl]
      have : ∀ es : List EdgeSpec, (edgeCalls es).flatMap Instr.newSentences = [] := by
        intro es
        unfold edgeCalls
        induction es with
        | nil => rfl
        | cons e es ih => simp [Instr.newSentences]
      rw [this]
      simp [ptbRootGraph]
  · have h0 : EdgesAre (ptbRootGraph name ns) [] := by
      refine ⟨?_, by simp, ?_⟩
      · rintro u v a ⟨k, h⟩
        unfold edgeAttrs at h
        rw [ptbRootGraph_kd] at h
        cases h
      · intro u v
        unfold edgeCount
        rw [ptbRootGraph_kd]
        rfl
    have h1 := EdgesAre.built h0 b (es' := (ptbCalls ns precedence rows).filterMap Instr.spec) (fun u v ls at' => mem_spec u v ls at') (fun u v => count_spec _ u v)
    rw [List.nil_append] at h1
    unfold ptbCalls at h1
    rw [List.filterMap_append, ptbRows_spec] at h1
    cases precedence with
    | false => exact h1
    | true =>
      rw [if_pos rfl, edgeCalls_spec] at h1
      exact h1
  · intro r hr pos w ht
    have h0 : r.parent ≠ 0 := by
      intro h0
      obtain ⟨c, ks, e⟩ := PtbRows.phrase h hp hr h0
      rw [ht] at e
      cases e
    rw [hattr r hr _ (qual_layers ns _), hattr r hr _ (qual_layers ns _), hattr r hr _ (by decide), hattr r hr _ (qual_layers ns _), ← ptbWord_eq]
    unfold ptbRowCalls ptbEntry ptbBody
    rw [if_neg h0, ht]
    simp only [ptbLen, Nat.lt_irrefl, if_false]
    simp [lastWrite, Instr.write, PtbRow.node, find, q1, q2, q3, q4, Ne.symm q1, Ne.symm q2, Ne.symm q3, Ne.symm q4, Ne.symm q5, Ne.symm q6]
  · intro r hr c ks ht
    rw [hattr r hr _ (qual_layers ns _), hattr r hr _ (qual_layers ns _), hattr r hr _ (by decide), hattr r hr _ (qual_layers ns _), ← ptbWord_eq]
    unfold ptbRowCalls ptbEntry ptbBody
    rw [ht]
    by_cases h0 : r.parent = 0
    · simp [lastWrite, Instr.write, PtbRow.node, h0, Syn.label, Ne.symm q1, Ne.symm q2, Ne.symm q3]
    · by_cases hl : 1 < ks.length
      · have hl2 : 2 ≤ ks.length := hl
        simp [lastWrite, Instr.write, PtbRow.node, h0, Syn.label, ptbLen, hl, hl2, find, q1, q2, q3, Ne.symm q1, Ne.symm q2, Ne.symm q3, Ne.symm q5, Ne.symm q6]
      · have hl2 : ¬ 2 ≤ ks.length := hl
        simp [lastWrite, Instr.write, PtbRow.node, h0, Syn.label, ptbLen, hl, hl2, find, q1, q2, q3, Ne.symm q1, Ne.symm q2, Ne.symm q3]
  · intro r hr l
    rw [b.layer, hrl, hgive, hroot]
    have himp : Implicit r.node (ptbCalls ns precedence rows) ↔ r.parent = 0 := ptbRows_implicit h.numbers (PtbRows.lt h) hr
    rw [himp]
    have hns : (ptbRootGraph name ns).ns = ns := rfl
    rw [hns, ← hlen]
    constructor
    · rintro (⟨e, _⟩ | ⟨q, hq, h0, e, hl⟩ | ⟨_, _, rfl⟩)
      · exact absurd e (hne r hr)
      · obtain rfl := hinj r hr q hq e
        exact hl.imp id (fun h => ⟨h.1, h0, h.2⟩)
      · exact .inl rfl
    · intro hl
      by_cases h0 : r.parent = 0
      · rcases hl with rfl | ⟨_, h1, _⟩
        · exact .inr (.inr ⟨hne r hr, h0, rfl⟩)
        · exact absurd h0 h1
      · exact .inr (.inl ⟨r, hr, h0, rfl, hl.imp id (fun h => ⟨h.1, h.2.2⟩)⟩)
  · intro l
    rw [b.layer, hrl, hgive, hroot]
    constructor
    · rintro (⟨_, e⟩ | ⟨q, hq, _, e, _⟩ | ⟨h1, _⟩)
      · exact e
      · exact absurd e.symm (hne q hq)
      · exact absurd rfl h1
    · rintro rfl
      exact .inl ⟨rfl, rfl⟩
  · rw [b.attr _ _ (by decide), lastWrite_none]
    · rfl
    · intro i hi
      unfold ptbCalls at hi
      rcases List.mem_append.1 hi with hi | hi
      · obtain ⟨r, hr, hi⟩ := List.mem_flatMap.1 hi
        exact ptbRow_write (Ne.symm (hne r hr)) hi
      · split at hi
        · unfold edgeCalls at hi
          obtain ⟨e, _, rfl⟩ := List.mem_map.1 hi
          rfl
        · cases hi


/-! ### the property -/

/-- what the words of the document are -/
theorem rows_words (t : Syn) : ∀ p n, (Syn.rowsAt true p n t).filterMap PtbRow.token = match t with
    | .tok pos w => [(pos, w)]
    | .phrase _ ks => ks.flatMap Syn.words := by
  induction t using Syn.ind with
  | h1 pos w => intro p n; rfl
  | h2 c ks ih =>
    intro p n
    rw [Syn.rowsAt, List.filterMap_cons]
    show (Syn.rowsKids true n (n + 1) ks).filterMap PtbRow.token = ks.flatMap Syn.words
    generalize n + 1 = m
    induction ks generalizing m with
    | nil => rfl
    | cons k ks ihk =>
      have ihk := ihk (fun k' hk' => ih k' (List.mem_cons_of_mem _ hk'))
      rw [Syn.rowsKids, List.flatMap_cons]
      by_cases hk : k.kept true = true
      · rw [if_pos hk, List.filterMap_append, ihk, ih k (by simp)]
        have hk' : ¬ k.IsTrace := by simpa [Syn.kept] using hk
        congr 1
        cases k with
        | tok pos w => simp only [Syn.words, if_neg hk']
        | phrase c ks' => simp only [Syn.words, if_neg hk', Syn.wordsAll_eq]
      · rw [if_neg hk, ihk]
        have hk' : k.IsTrace := by simpa [Syn.kept] using hk
        have : k.words = [] := by
          cases k with
          | tok pos w => simp only [Syn.words, if_pos hk']
          | phrase c ks' => simp only [Syn.words, if_pos hk']
        rw [this]
        rfl

theorem doc_words (ts : List Syn) (hp : ∀ t ∈ ts, t.IsPhrase) : ∀ n, (Syn.rowsDoc true n ts).filterMap PtbRow.token = ts.flatMap (fun t => t.parts.flatMap Syn.words) := by
  induction ts with
  | nil => intro n; rfl
  | cons t ts ih =>
    intro n
    rw [Syn.rowsDoc, List.filterMap_append, ih (fun t' ht' => hp t' (List.mem_cons_of_mem _ ht')), rows_words, List.flatMap_cons]
    obtain ⟨c, ks, rfl⟩ := hp t (by simp)
    rfl

theorem ptbTokens_words (rows : List PtbRow) : (ptbTokens rows).map Prod.snd = rows.filterMap PtbRow.token := by
  unfold ptbTokens
  rw [List.map_filterMap]
  congr 1
  funext r
  cases r.token <;> rfl

theorem ptbLimit_map (limit : Option Nat) (ts : List Syn) : ptbLimit limit (ts.map Syn.ptree) = (match limit with | some (n + 1) => ts.take (n + 1) | _ => ts).map Syn.ptree := by
  unfold ptbLimit
  match limit with
  | none => rfl
  | some 0 => rfl
  | some (n + 1) => exact (List.map_take).symm

theorem ptbRange_sub {limit : Option Nat} {ts : List Syn} {t : Syn} (h : t ∈ ptbRange limit ts) : t ∈ ts := by
  unfold ptbRange at h
  split at h
  · exact List.mem_of_mem_take h
  · exact h

/-- **C61 (content)**.  A file whose sentences are phrases, none of whose words is "-NONE-", can be read (precedence edges need at least two tokens).  The graph consists of the sentences' trees: their nodes are numbered from left to right, each sentence is attached to the node 0, each other node to what it is part of; empty elements are left out (but see `c61_fails_traces`); words carry their text and part of speech, tokens are listed in text order. -/
theorem c61_content (name ns : String) (precedence : Bool) (limit : Option Nat) (ignore : Bool) (ts : List Syn) (hok : ∀ t ∈ ts, t.Ok) (hp : ∀ t ∈ ts, t.IsPhrase) :
    ∃ rows, PtbRows ignore (ptbRange limit ts) rows ∧
      ((precedence = true → 2 ≤ (ptbTokens rows).length) → ∃ g, ptbRead name ns precedence limit ignore (ts.map Syn.ptree) = .ok g ∧ g.name = name ∧ PtbContent ns precedence rows g) := by
  have hspec := Syn.rowsDoc_spec ignore (ptbRange limit ts)
  refine ⟨_, hspec, fun h2 => ?_⟩
  have hp' : ∀ t ∈ ptbRange limit ts, t.IsPhrase := fun t ht => hp t (ptbRange_sub ht)
  obtain ⟨g, e, b⟩ := ptbRead_built name ns precedence limit ignore (ptbLimit_map limit ts) (fun t ht => hok t (ptbRange_sub ht)) hp' h2
  exact ⟨g, e, b.name, ptb_content hspec hp' b⟩

/-- **C61 (words)**.  With `ignore_traces` (the default), the tokens of the graph are, in this order, the words of the file without the empty elements, each with its part of speech; the names of brackets are replaced by the brackets.  No node is listed twice. -/
theorem c61_words (name ns : String) (precedence : Bool) (limit : Option Nat) (ts : List Syn) (hok : ∀ t ∈ ts, t.Ok) (hp : ∀ t ∈ ts, t.IsPhrase) (hn : ∀ t ∈ ts, ¬ t.IsTrace)
    (h2 : precedence = true → 2 ≤ ((ptbRange limit ts).flatMap Syn.words).length) :
    ∃ g, ptbRead name ns precedence limit true (ts.map Syn.ptree) = .ok g ∧ g.tokens.Nodup ∧
      g.tokens.map (fun n => (g.nodeAttr n (qual ns "pos"), g.nodeAttr n (qual ns "token"))) = ((ptbRange limit ts).flatMap Syn.words).map (fun w => (some (strVal w.1), some (strVal (ptbWord w.2)))) ∧
      g.sentences.length = (ptbRange limit ts).length := by
  have hspec := Syn.rowsDoc_spec true (ptbRange limit ts)
  have hp' : ∀ t ∈ ptbRange limit ts, t.IsPhrase := fun t ht => hp t (ptbRange_sub ht)
  have hw : (Syn.rowsDoc true 1 (ptbRange limit ts)).filterMap PtbRow.token = (ptbRange limit ts).flatMap Syn.words := by
    rw [doc_words _ hp']
    have : ∀ t ∈ ptbRange limit ts, t.parts.flatMap Syn.words = t.words := by
      intro t ht
      have h1 := hn t (ptbRange_sub ht)
      obtain ⟨c, ks, rfl⟩ := hp' t ht
      rw [Syn.words, if_neg h1, Syn.wordsAll_eq]
      rfl
    clear hp' hspec h2
    generalize ptbRange limit ts = l at this ⊢
    induction l with
    | nil => rfl
    | cons t r ih => rw [List.flatMap_cons, List.flatMap_cons, this t (by simp), ih (fun t' ht' => this t' (List.mem_cons_of_mem _ ht'))]
  have hw2 := ptbTokens_words (Syn.rowsDoc true 1 (ptbRange limit ts))
  rw [hw] at hw2
  have hlen : (ptbTokens (Syn.rowsDoc true 1 (ptbRange limit ts))).length = ((ptbRange limit ts).flatMap Syn.words).length := by
    rw [← hw2, List.length_map]
  obtain ⟨g, e, b⟩ := ptbRead_built name ns precedence limit true (ptbLimit_map limit ts) (fun t ht => hok t (ptbRange_sub ht)) hp' (fun h => by show 2 ≤ (ptbTokens (Syn.rowsDoc true 1 (ptbRange limit ts))).length; rw [hlen]; exact h2 h)
  have hc := ptb_content hspec hp' b
  refine ⟨g, e, ?_, ?_, ?_⟩
  · rw [hc.tokens]
    have : ((Syn.rowsDoc true 1 (ptbRange limit ts)).map PtbRow.node).Nodup := by
      refine List.pairwise_map.2 (hspec.numbers.imp (fun {a b} hab e => ?_))
      unfold PtbRow.node at e
      injection e with e
      omega
    refine this.sublist ?_
    unfold ptbTokens
    generalize Syn.rowsDoc true 1 (ptbRange limit ts) = rows
    induction rows with
    | nil => exact .slnil
    | cons r rows ih =>
      rw [List.filterMap_cons, List.map_cons]
      cases r.token with
      | none => exact ih.cons _
      | some t => exact ih.cons_cons _
  · rw [hc.tokens, ← hw2, List.map_map, List.map_map]
    refine List.map_congr_left ?_
    rintro ⟨n, pos, w⟩ hx
    obtain ⟨r, hr, ht, rfl⟩ := mem_ptbTokens.1 hx
    obtain ⟨a1, a2, _⟩ := hc.token r hr pos w ht
    simp only [Function.comp_apply]
    rw [a1, a2]
  · rw [hc.sentences, List.length_map]
    have := congrArg List.length hspec.sentences
    rw [List.length_map] at this
    exact this

/-- **C61 (tree)**.  Without precedence edges the graph is a tree: no edge leads to the root, exactly one to every other node, and everything can be reached from the root. -/
theorem c61_tree (name ns : String) (limit : Option Nat) (ignore : Bool) (ts : List Syn) (hok : ∀ t ∈ ts, t.Ok) (hp : ∀ t ∈ ts, t.IsPhrase) :
    ∃ g, ptbRead name ns false limit ignore (ts.map Syn.ptree) = .ok g ∧
      (∀ u, g.edgeCount u g.root = 0) ∧
      (∀ m, g.HasNode m → m ≠ g.root → ∃ u, g.edgeCount u m = 1 ∧ ∀ u', u' ≠ u → g.edgeCount u' m = 0) ∧
      (∀ m, g.HasNode m → Relation.ReflTransGen (fun u v => 0 < g.edgeCount u v) g.root m) := by
  obtain ⟨rows, hs, hr⟩ := c61_content name ns false limit ignore ts hok hp
  obtain ⟨g, e, _, hc⟩ := hr (by simp)
  have he := hc.edges
  simp only [Bool.false_eq_true, if_false, List.append_nil] at he
  have hnd : ((rows.map (PtbRow.edge ns)).map EdgeSpec.target).Nodup := by
    rw [List.map_map]
    refine List.pairwise_map.2 (hs.numbers.imp (fun {a b} hab e => ?_))
    simp only [Function.comp_apply, PtbRow.edge] at e
    injection e with e
    omega
  refine ⟨g, e, ?_, ?_, ?_⟩
  · intro u
    rw [hc.root]
    refine he.untouched ?_ u
    intro x hx e
    obtain ⟨r, hr, rfl⟩ := List.mem_map.1 hx
    simp only [PtbRow.edge] at e
    injection e with e
    have := hs.positive r hr
    omega
  · intro m hm hne
    rw [hc.root] at hne
    rcases (hc.nodes m).1 hm with h | ⟨r, hr, rfl⟩
    · exact absurd h hne
    · exact ⟨.int r.parent, he.single hnd (e := r.edge ns) (List.mem_map_of_mem hr)⟩
  · have key : ∀ n, ∀ r ∈ rows, r.id ≤ n → Relation.ReflTransGen (fun u v => 0 < g.edgeCount u v) g.root r.node := by
      intro n
      induction n with
      | zero => intro r hr h; have := hs.positive r hr; omega
      | succ n ih =>
        intro r hr hle
        have h1 := (he.single hnd (e := r.edge ns) (List.mem_map_of_mem hr)).1
        have h2 : 0 < g.edgeCount (.int r.parent) r.node := by
          have : g.edgeCount (.int r.parent) r.node = 1 := h1
          omega
        rcases hs.parents r hr with h0 | ⟨q, hq, h3, h4⟩
        · rw [h0] at h2
          rw [hc.root]
          exact .single h2
        · have h5 := ih q hq (by omega)
          rw [← h3] at h2
          exact h5.tail h2
    intro m hm
    rcases (hc.nodes m).1 hm with h | ⟨r, hr, rfl⟩
    · rw [h, hc.root]
    · exact key r.id r hr (Nat.le_refl _)


/-! ### empty elements -/

theorem allWordsOf_eq (ks : List Syn) : Syn.allWordsOf ks = ks.flatMap Syn.allWords := by
  induction ks with
  | nil => rfl
  | cons k ks ih => rw [Syn.allWordsOf, ih]; rfl

/-- without empty elements nothing is left out -/
theorem words_all (t : Syn) : (∀ s, Syn.Part s t → ¬ s.IsTrace) → t.words = t.allWords := by
  induction t using Syn.ind with
  | h1 pos w => intro h; rw [Syn.words, if_neg (h _ (.refl _))]; rfl
  | h2 c ks ih =>
    intro h
    rw [Syn.words, if_neg (h _ (.refl _)), Syn.wordsAll_eq, Syn.allWords, allWordsOf_eq]
    have : ∀ k ∈ ks, k.words = k.allWords := fun k hk => ih k hk (fun s hs => h s (.kid hk hs))
    clear ih h
    induction ks with
    | nil => rfl
    | cons k ks ihk => rw [List.flatMap_cons, List.flatMap_cons, this k (by simp), ihk (fun k' hk' => this k' (List.mem_cons_of_mem _ hk'))]

theorem sentence_all {t : Syn} (hs : t.Shallow) (hp : t.IsPhrase) (p n : Nat) : (Syn.rowsAt false p n t).filterMap PtbRow.token = t.allWords := by
  obtain ⟨c, ks, rfl⟩ := hp
  have hk : ∀ k ∈ ks, ∀ p n, (Syn.rowsAt true p n k).filterMap PtbRow.token = k.allWords := by
    intro k hk p n
    rw [rows_words]
    have := hs k hk
    cases k with
    | tok pos w => rfl
    | phrase c' ks' =>
      simp only [Syn.allWords, allWordsOf_eq, Syn.parts] at this ⊢
      have h2 : ∀ x ∈ ks', x.words = x.allWords := fun x hx => words_all x (this x hx)
      clear this hk hs
      induction ks' with
      | nil => rfl
      | cons x ks' ih => rw [List.flatMap_cons, List.flatMap_cons, h2 x (by simp), ih (fun y hy => h2 y (List.mem_cons_of_mem _ hy))]
  rw [Syn.rowsAt, List.filterMap_cons, Syn.allWords, allWordsOf_eq]
  show (Syn.rowsKids false n (n + 1) ks).filterMap PtbRow.token = ks.flatMap Syn.allWords
  generalize n + 1 = m
  clear hs
  induction ks generalizing m with
  | nil => rfl
  | cons k ks ih =>
    rw [Syn.rowsKids, if_pos (by rfl), List.filterMap_append, hk k (by simp), ih (fun k' hk' => hk k' (List.mem_cons_of_mem _ hk')), List.flatMap_cons]

/-- **C61 (keeping empty elements), partial**.  With `ignore_traces=False`, all words of the file, including the empty elements, become tokens: proved for files in which empty elements occur only as direct parts of sentences.  Missing: any other file; there the claim is false, see `c61_fails_traces`. -/
theorem c61_keep_partial (name ns : String) (limit : Option Nat) (ts : List Syn) (hok : ∀ t ∈ ts, t.Ok) (hp : ∀ t ∈ ts, t.IsPhrase) (hs : ∀ t ∈ ts, t.Shallow) :
    ∃ g, ptbRead name ns false limit false (ts.map Syn.ptree) = .ok g ∧
      g.tokens.map (fun n => (g.nodeAttr n (qual ns "pos"), g.nodeAttr n (qual ns "token"))) = ((ptbRange limit ts).flatMap Syn.allWords).map (fun w => (some (strVal w.1), some (strVal (ptbWord w.2)))) := by
  have hspec := Syn.rowsDoc_spec false (ptbRange limit ts)
  have hp' : ∀ t ∈ ptbRange limit ts, t.IsPhrase := fun t ht => hp t (ptbRange_sub ht)
  have hs' : ∀ t ∈ ptbRange limit ts, t.Shallow := fun t ht => hs t (ptbRange_sub ht)
  have hw : (Syn.rowsDoc false 1 (ptbRange limit ts)).filterMap PtbRow.token = (ptbRange limit ts).flatMap Syn.allWords := by
    generalize ptbRange limit ts = l at hp' hs' ⊢
    generalize 1 = m
    induction l generalizing m with
    | nil => rfl
    | cons t r ih =>
      rw [Syn.rowsDoc, List.filterMap_append, sentence_all (hs' t (by simp)) (hp' t (by simp)), ih (fun t' ht' => hp' t' (List.mem_cons_of_mem _ ht')) (fun t' ht' => hs' t' (List.mem_cons_of_mem _ ht')), List.flatMap_cons]
  have hw2 := ptbTokens_words (Syn.rowsDoc false 1 (ptbRange limit ts))
  rw [hw] at hw2
  obtain ⟨g, e, b⟩ := ptbRead_built name ns false limit false (ptbLimit_map limit ts) (fun t ht => hok t (ptbRange_sub ht)) hp' (by simp)
  have hc := ptb_content hspec hp' b
  refine ⟨g, e, ?_⟩
  rw [hc.tokens, ← hw2, List.map_map, List.map_map]
  refine List.map_congr_left ?_
  rintro ⟨n, pos, w⟩ hx
  obtain ⟨r, hr, ht, rfl⟩ := mem_ptbTokens.1 hx
  obtain ⟨a1, a2, _⟩ := hc.token r hr pos w ht
  simp only [Function.comp_apply]
  rw [a1, a2]

/-- **C61 (`ignore_traces=False` is ignored)**.  If no direct part of a sentence is an empty element, then the option has no effect at all: all empty elements are dropped.  (It is not passed on to the recursive calls.) -/
theorem c61_fails_traces (name ns : String) (precedence : Bool) (limit : Option Nat) (sents : List PTree) (h : ∀ t ∈ sents, ∀ l ks, t = .node l ks → ∀ k ∈ ks, ∀ a, ptbNodeLabel k = .ok a → a ≠ ['-', 'N', 'O', 'N', 'E', '-']) :
    ptbRead name ns precedence limit false sents = ptbRead name ns precedence limit true sents := by
  have hk : ∀ (ks : List PTree), (∀ k ∈ ks, ∀ a, ptbNodeLabel k = .ok a → a ≠ ['-', 'N', 'O', 'N', 'E', '-']) → ∀ parent root st, ptbKids false parent root ks st = ptbKids true parent root ks st := by
    intro ks
    induction ks with
    | nil => intro _ _ _ _; rfl
    | cons k ks ih =>
      intro hks parent root st
      have ih := ih (fun k' hk' => hks k' (List.mem_cons_of_mem _ hk'))
      rw [ptbKids, ptbKids]
      cases hl : ptbNodeLabel k with
      | error e => rfl
      | ok a =>
        simp only [except_bind_ok]
        have := hks k (by simp) a hl
        have hne : ptbUnescape a ≠ ptbNone := by rw [Ne, ptbUnescape_none]; exact this
        simp only [hne, and_false, if_false, ih]
  have hsent : ∀ t ∈ sents, ∀ st, ptbAddSentence false st t = ptbAddSentence true st t := by
    intro t ht st
    unfold ptbAddSentence
    have : ∀ st, ptbParse false none t st = ptbParse true none t st := by
      intro st
      cases t with
      | leaf w => simp only [ptbParse]
      | none => simp only [ptbParse]
      | node l ks =>
        rw [ptbParse, ptbParse]
        simp only [hk ks (h _ ht l ks rfl)]
    simp only [this]
  unfold ptbRead
  have hsub : ∀ t ∈ ptbLimit limit sents, t ∈ sents := by
    intro t ht
    unfold ptbLimit at ht
    split at ht
    · exact ht
    · exact ht
    · exact List.mem_of_mem_take ht
  have hfold : ∀ st, (ptbLimit limit sents).foldlM (ptbAddSentence false) st = (ptbLimit limit sents).foldlM (ptbAddSentence true) st := by
    generalize ptbLimit limit sents = l at hsub
    induction l with
    | nil => intro _; rfl
    | cons t l ih =>
      intro st
      rw [List.foldlM_cons, List.foldlM_cons, hsent t (hsub t (by simp))]
      congr 1
      funext st'
      exact ih (fun t' ht' => hsub t' (List.mem_cons_of_mem _ ht')) st'
  simp only [hfold]

/-- **C61 (a word that is not inside a part of speech)**.  If a sentence begins with a bare word, reading the file fails with a KeyError. -/
theorem c61_fails_bare (name ns : String) (precedence : Bool) (ignore : Bool) (l w : List Char) (ks sents : List PTree) (hw : w ≠ ['-', 'N', 'O', 'N', 'E', '-']) :
    ptbRead name ns precedence none ignore (.node l (.leaf w :: ks) :: sents) = .error .key := by
  unfold ptbRead
  rw [ptbStart_eq]
  simp only [except_bind_ok, ptbLimit, List.foldlM_cons]
  have hp : ∀ g : DG, g.HasNode (.int 1) → ptbParse ignore none (.node l (.leaf w :: ks)) (g, 1) = .error .key := by
    intro g hg
    rw [ptbParse]
    obtain ⟨a, ha⟩ := (hasNode_some _ _).1 hg
    have ha : find g.nodes (.int 1) = some a := ha
    simp only [setAttr]
    rw [show ((1 : Nat) : Int) = 1 from rfl, ha]
    simp only [except_bind_ok, ptbKids, ptbNodeLabel]
    rw [if_neg (by rw [ptbUnescape_none]; exact fun h => hw h.2)]
    rfl
  have hs : ptbAddSentence ignore (ptbRootGraph name ns, 1) (.node l (.leaf w :: ks)) = .error .key := by
    unfold ptbAddSentence
    have hst := ptbRootGraph_state name ns
    obtain ⟨g1, e1, b1⟩ := built_edge (g := { ptbRootGraph name ns with sentences := [.int 1] }) (inv_sentences hst.inv _) hst.layered (.int 0) (.int 1) (ls := [ns]) (at' := [("edge_type", .atom (.str dominanceRelation))]) (by simp) (by simp [keys])
    have e2 := addEdge_default { ptbRootGraph name ns with sentences := [.int 1] } (.int 0) (.int 1) [("edge_type", .atom (.str dominanceRelation))]
    have e3 := e2.trans e1
    have hg : g1.HasNode (.int 1) := (b1.nodes _).2 (.inr ⟨_, List.mem_singleton.2 rfl, .inr rfl⟩)
    show (DG.addEdge { ptbRootGraph name ns with sentences := [.int 1] } (.int 0) (.int 1) (.atom .none) none .none [("edge_type", .atom (.str dominanceRelation))] >>= _) = _
    rw [e3]
    simp only [except_bind_ok, hp g1 hg]
    rfl
  rw [hs]
  rfl


/-- **C61 (categories), partial**.  A phrase is in the syntax layer and carries its category: proved for phrases with at least two parts that are not sentences.  Missing: sentences and phrases with one part; there the claim is false, see `c61_fails_category`. -/
theorem c61_category_partial (name ns : String) (precedence : Bool) (limit : Option Nat) (ignore : Bool) (ts : List Syn) (hok : ∀ t ∈ ts, t.Ok) (hp : ∀ t ∈ ts, t.IsPhrase) :
    ∃ rows, PtbRows ignore (ptbRange limit ts) rows ∧ ((precedence = true → 2 ≤ (ptbTokens rows).length) → ∃ g, ptbRead name ns precedence limit ignore (ts.map Syn.ptree) = .ok g ∧
      ∀ r ∈ rows, ∀ c ks, r.tree = .phrase c ks → r.parent ≠ 0 → 2 ≤ ks.length → g.nodeAttr r.node (qual ns "cat") = some (strVal (ptbWord c)) ∧ g.NodeLayer r.node (.str (qual ns "syntax"))) := by
  obtain ⟨rows, h1, h2⟩ := c61_content name ns precedence limit ignore ts hok hp
  refine ⟨rows, h1, fun h => ?_⟩
  obtain ⟨g, e, _, hc⟩ := h2 h
  refine ⟨g, e, ?_⟩
  intro r hr c ks ht h0 h2
  refine ⟨?_, ?_⟩
  · rw [(hc.phrase r hr c ks ht).2.2.2, if_pos ⟨h0, h2⟩]
  · rw [hc.layer r hr]
    exact .inr ⟨rfl, h0, by rw [ht]; exact h2⟩

/-- **C61 (no category)**.  Sentences and phrases with one part, e.g. `(NP (NNS prices))`, have no category and are not in the syntax layer. -/
theorem c61_fails_category (name ns : String) (precedence : Bool) (limit : Option Nat) (ignore : Bool) (ts : List Syn) (hok : ∀ t ∈ ts, t.Ok) (hp : ∀ t ∈ ts, t.IsPhrase) :
    ∃ rows, PtbRows ignore (ptbRange limit ts) rows ∧ ((precedence = true → 2 ≤ (ptbTokens rows).length) → ∃ g, ptbRead name ns precedence limit ignore (ts.map Syn.ptree) = .ok g ∧
      ∀ r ∈ rows, ∀ c ks, r.tree = .phrase c ks → r.parent = 0 ∨ ks.length = 1 → g.HasNode r.node ∧ g.nodeAttr r.node (qual ns "cat") = none ∧ ¬ g.NodeLayer r.node (.str (qual ns "syntax"))) := by
  obtain ⟨rows, h1, h2⟩ := c61_content name ns precedence limit ignore ts hok hp
  refine ⟨rows, h1, fun h => ?_⟩
  obtain ⟨g, e, _, hc⟩ := h2 h
  refine ⟨g, e, ?_⟩
  intro r hr c ks ht hx
  refine ⟨(hc.nodes _).2 (.inr ⟨r, hr, rfl⟩), ?_, ?_⟩
  · rw [(hc.phrase r hr c ks ht).2.2.2, if_neg]
    rintro ⟨h3, h4⟩
    rcases hx with hx | hx
    · exact h3 hx
    · omega
  · rw [hc.layer r hr]
    rintro (h3 | ⟨_, h3, h4⟩)
    · have e1 := congrArg (fun s : String => s.toList.length) (Atom.str.inj h3)
      simp [qual] at e1
    · rcases hx with hx | hx
      · exact h3 hx
      · rw [ht] at h4
        simp only [Syn.parts] at h4
        omega

/-- **C61 (phrases without words)**.  A phrase that consists only of empty elements stays in the graph as a node without edges to other nodes and without a word. -/
theorem c61_empty (name ns : String) (limit : Option Nat) (ts : List Syn) (hok : ∀ t ∈ ts, t.Ok) (hp : ∀ t ∈ ts, t.IsPhrase) :
    ∃ rows, PtbRows true (ptbRange limit ts) rows ∧ ∃ g, ptbRead name ns false limit true (ts.map Syn.ptree) = .ok g ∧
      ∀ r ∈ rows, ∀ c ks, r.tree = .phrase c ks → (∀ k ∈ ks, k.IsTrace) → g.HasNode r.node ∧ r.node ∉ g.tokens ∧ ∀ v, g.edgeCount r.node v = 0 := by
  obtain ⟨rows, h1, h2⟩ := c61_content name ns false limit true ts hok hp
  obtain ⟨g, e, _, hc⟩ := h2 (by simp)
  refine ⟨rows, h1, g, e, ?_⟩
  intro r hr c ks ht hk
  have hinj : ∀ q ∈ rows, q.node = r.node → q = r := by
    intro q hq e
    have hd : rows.Pairwise (fun a b => a.node ≠ b.node) := h1.numbers.imp (fun {a b} hab e => by
      unfold PtbRow.node at e
      injection e with e
      omega)
    exact List.inj_on_of_nodup_map (f := PtbRow.node) (List.pairwise_map.2 hd) hq hr e
  refine ⟨(hc.nodes _).2 (.inr ⟨r, hr, rfl⟩), ?_, ?_⟩
  · rw [hc.tokens]
    intro h
    obtain ⟨x, hx, e⟩ := List.mem_map.1 h
    obtain ⟨q, hq, ht', e'⟩ := mem_ptbTokens.1 hx
    obtain rfl := hinj q hq (e'.symm.trans e)
    rw [ht] at ht'
    cases ht'
  · intro v
    have he := hc.edges
    simp only [Bool.false_eq_true, if_false, List.append_nil] at he
    rw [he.count, List.countP_eq_zero]
    intro x hx
    obtain ⟨q, hq, rfl⟩ := List.mem_map.1 hx
    simp only [decide_eq_true_eq, not_and]
    intro e _
    have hpar : q.parent = r.id := by
      unfold PtbRow.edge PtbRow.node at e
      injection e with e
      omega
    have h3 := h1.parts r hr
    have h4 : r.tree.parts.filter (Syn.kept (true || decide (r.parent ≠ 0))) = [] := by
      rw [List.filter_eq_nil_iff]
      intro k hk'
      rw [ht] at hk'
      have := hk k hk'
      simp [Syn.kept, this]
    rw [h4, List.map_eq_nil_iff, List.filter_eq_nil_iff] at h3
    exact h3 q hq (by simp [hpar])

/-- **C61 (limit)**.  `limit=0` reads the whole file, not nothing. -/
theorem c61_fails_limit (name ns : String) (precedence ignore : Bool) (sents : List PTree) : ptbRead name ns precedence (some 0) ignore sents = ptbRead name ns precedence none ignore sents := rfl

/-! ### example -/

/-- `(S (NP-1 (NNS prices)) (VP (VBD fell) (S (NP (-NONE- *-1)) (-LRB- -LRB-))))` -/
def c61Example : Syn :=
  .phrase ['S'] [.phrase ['N', 'P', '-', '1'] [.tok ['N', 'N', 'S'] ['p', 'r', 'i', 'c', 'e', 's']],
    .phrase ['V', 'P'] [.tok ['V', 'B', 'D'] ['f', 'e', 'l', 'l'], .phrase ['S'] [.phrase ['N', 'P'] [.tok ['-', 'N', 'O', 'N', 'E', '-'] ['*', '-', '1']], .tok ['-', 'L', 'R', 'B', '-'] ['-', 'L', 'R', 'B', '-']]]]

theorem c61_example_ok : c61Example.Ok := by
  intro pos w h
  unfold c61Example at h
  cases h with
  | kid hk h =>
    simp only [List.mem_cons, List.not_mem_nil, or_false] at hk
    rcases hk with rfl | rfl
    · cases h with
      | kid hk h =>
        simp only [List.mem_cons, List.not_mem_nil, or_false] at hk
        subst hk
        cases h
        decide
    · cases h with
      | kid hk h =>
        simp only [List.mem_cons, List.not_mem_nil, or_false] at hk
        rcases hk with rfl | rfl
        · cases h
          decide
        · cases h with
          | kid hk h =>
            simp only [List.mem_cons, List.not_mem_nil, or_false] at hk
            rcases hk with rfl | rfl
            · cases h with
              | kid hk h =>
                simp only [List.mem_cons, List.not_mem_nil, or_false] at hk
                subst hk
                cases h
                decide
            · cases h
              decide

theorem c61_example_phrase : c61Example.IsPhrase := ⟨_, _, rfl⟩

example : (∀ t ∈ [c61Example, c61Example], t.Ok) ∧ (∀ t ∈ [c61Example, c61Example], t.IsPhrase) ∧ (∀ t ∈ [c61Example, c61Example], ¬ t.IsTrace) := by
  refine ⟨?_, ?_, ?_⟩
  · intro t ht; simp at ht; subst ht; exact c61_example_ok
  · intro t ht; simp at ht; subst ht; exact c61_example_phrase
  · intro t ht; simp at ht; subst ht; decide

/-- the words -/
example : c61Example.words = [(['N', 'N', 'S'], ['p', 'r', 'i', 'c', 'e', 's']), (['V', 'B', 'D'], ['f', 'e', 'l', 'l']), (['-', 'L', 'R', 'B', '-'], ['-', 'L', 'R', 'B', '-'])] := by decide

/-- the tokens of the graph: the numbers of words, empty elements and what precedes are skipped -/
example : ((ptbRead "n" "ptb" true none true [c61Example.ptree, c61Example.ptree]).toOption.map (fun g => (g.tokens, g.sentences, g.nodeAttr (.int 9) "ptb:token"))) = some ([.int 3, .int 6, .int 11, .int 15, .int 18, .int 23], [.int 1, .int 13], none) := by decide +kernel

/-- a file with a trace that is a direct part of a sentence -/
example : Syn.Shallow (.phrase ['S'] [.tok ['-', 'N', 'O', 'N', 'E', '-'] ['*'], .tok ['V', 'B'] ['g', 'o']]) := by
  intro k hk x hx
  simp only [Syn.parts, List.mem_cons, List.not_mem_nil, or_false] at hk
  rcases hk with rfl | rfl <;> cases hx

end DG
end Dg
