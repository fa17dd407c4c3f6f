import Verif.Lemmas.TigerDoc
import Verif.Lemmas.Rs3Write
import Verif.Spec.Offsets
import Batteries.Lean.Except

/-! C55: the TigerXML reader. -/

namespace Dg
open Dict
namespace DG

/-! ### examples -/

/-- a sentence with two nonterminals, a secondary edge of a terminal, a secondary edge of a nonterminal, a forward reference and an unconnected token -/
def sampleTiger1 : TigerS :=
  ⟨[("id", "s1")], [("root", "s1_500")],
    [⟨[("id", "s1_1"), ("word", "Die"), ("pos", "ART")], []⟩, ⟨[("id", "s1_2"), ("word", "Frau"), ("pos", "NN")], [[("idref", "s1_501"), ("label", "SB")]]⟩, ⟨[("id", "s1_10"), ("word", "."), ("pos", "$.")], []⟩],
    [⟨[("id", "s1_500"), ("cat", "S")], [[("idref", "s1_501"), ("label", "SB")]], [[("idref", "s1_501"), ("label", "OA")]]⟩,
     ⟨[("id", "s1_501"), ("cat", "NP")], [[("idref", "s1_1"), ("label", "NK")], [("idref", "s1_2"), ("label", "NK")]], []⟩]⟩

/-- a sentence without nonterminals -/
def sampleTiger2 : TigerS := ⟨[("id", "s2")], [("root", "s2_1")], [⟨[("id", "s2_1"), ("word", "Ja"), ("pos", "ITJ")], []⟩, ⟨[("id", "s2_2"), ("word", "!"), ("pos", "$.")], []⟩], []⟩

theorem sampleTiger1_valid : sampleTiger1.Valid := by
  refine ⟨by decide, by unfold XmlOk; decide, by unfold XmlOk; decide, by decide, by decide, by decide, ?_, by decide⟩
  intro pre t post h _ h2
  unfold sampleTiger1 at h
  cases pre with
  | nil =>
    injection h with h _
    subst h
    exact absurd h2 (by decide)
  | cons x pre =>
    injection h with h _
    subst h
    simp at h2

theorem sampleTiger2_valid : sampleTiger2.Valid := by
  refine ⟨by decide, by unfold XmlOk; decide, by unfold XmlOk; decide, by decide, by decide, by decide, ?_, by decide⟩
  intro pre t post h
  unfold sampleTiger2 at h
  cases pre <;> cases h

theorem sampleTiger_valid (ns : String) (h : ns = "tiger" ∨ ns = "syntax") : ValidDoc ns [sampleTiger1, sampleTiger2] := by
  refine ⟨?_, by decide, ?_, by decide⟩
  · intro s hs
    simp only [List.mem_cons, List.not_mem_nil, or_false] at hs
    rcases hs with rfl | rfl
    · exact sampleTiger1_valid
    · exact sampleTiger2_valid
  · rcases h with rfl | rfl <;> decide

/-! ### the properties -/

/-- **C55 (success)**.  Every file whose sentences conform to the TigerXML format – required attributes, unique IDs, no reference to elements outside the sentence – can be read, if a secondary edge of a nonterminal is preceded by an ordinary
edge in the sentence, no nonterminal has an attribute called "token" and no ID coincides with the names the reader uses for its own nodes.
Missing: the first of these conditions is not part of the format, see `c55_fails_secedge_without_edge`. -/
theorem c55_reads_valid_files_partial (name ns : String) (ss : List TigerS) (hd : ValidDoc ns ss) : (tigerRead name ns ss).isOk = true := by
  obtain ⟨g, e, _⟩ := tigerRead_graph (name := name) hd
  rw [e]; rfl

example : (tigerRead "f.xml" "tiger" [sampleTiger1, sampleTiger2]).isOk = true := c55_reads_valid_files_partial _ _ _ (sampleTiger_valid _ (.inl rfl))

/-- **C55 (nodes)**.  The nodes of the document graph are: its root, the terminals and nonterminals of the file under their IDs, and one virtual root if there are sentences whose root is a terminal. -/
theorem c55_nodes (name ns : String) (ss : List TigerS) (hd : ValidDoc ns ss) (g : DG) (hg : tigerRead name ns ss = .ok g) (m : NodeId) :
    g.HasNode m ↔ m = .str (ns ++ ":root_node") ∨ (∃ s ∈ ss, m ∈ s.declared) ∨ (m = .str "tiger:VROOT" ∧ ∃ s ∈ ss, s.root ∈ s.toks) := by
  obtain ⟨g', e, d, _⟩ := tigerRead_graph (name := name) hd
  rw [e] at hg
  obtain rfl := Except.ok.inj hg
  have h1 : NodeId.str (ns ++ ":root_node") = docRoot ns := by simp [docRoot, qual]
  have h2 : NodeId.str "tiger:VROOT" = .str (qual "tiger" "VROOT") := by decide
  rw [d.nodes, h1, h2]
  constructor
  · rintro (h | ⟨s, hs, h | h⟩)
    · exact .inl h
    · exact .inr (.inl ⟨s, hs, h⟩)
    · rcases topNode_cases (p := "tiger") (hd.valid s hs) with ⟨h3, ht⟩ | ⟨_, _, ht⟩
      · exact .inr (.inr ⟨h.trans ht, s, hs, h3⟩)
      · exact .inr (.inl ⟨s, hs, h ▸ ht⟩)
  · rintro (h | ⟨s, hs, h⟩ | ⟨h, s, hs, h3⟩)
    · exact .inl h
    · exact .inr ⟨s, hs, .inl h⟩
    · refine .inr ⟨s, hs, .inr ?_⟩
      rw [h]
      unfold topNode
      rw [if_pos h3]

example : ∃ g, tigerRead "f.xml" "tiger" [sampleTiger1, sampleTiger2] = .ok g ∧ g.HasNode (.str "s1_501") ∧ g.HasNode (.str "tiger:VROOT") ∧ ¬ g.HasNode (.str "s1_3") := by
  obtain ⟨g, e, _⟩ := tigerRead_graph (name := "f.xml") (sampleTiger_valid "tiger" (.inl rfl))
  refine ⟨g, e, ?_, ?_, ?_⟩
  · rw [c55_nodes _ _ _ (sampleTiger_valid "tiger" (.inl rfl)) g e]; decide
  · rw [c55_nodes _ _ _ (sampleTiger_valid "tiger" (.inl rfl)) g e]; decide
  · rw [c55_nodes _ _ _ (sampleTiger_valid "tiger" (.inl rfl)) g e]; decide

theorem find_term {s : TigerS} (hv : s.Valid) {t : TigerT} (ht : t ∈ s.terms) : s.terms.find? (fun y => decide (y.node = t.node)) = some t := by
  have nd := hv.unique
  unfold TigerS.declared TigerS.toks at nd
  rw [List.nodup_append] at nd
  exact find_unique nd.1 ht

theorem find_nt {s : TigerS} (hv : s.Valid) {t : TigerNt} (ht : t ∈ s.nts) : s.terms.find? (fun y => decide (y.node = t.node)) = none ∧ s.nts.find? (fun y => decide (y.node = t.node)) = some t := by
  have nd := hv.unique
  unfold TigerS.declared TigerS.toks at nd
  rw [List.nodup_append] at nd
  refine ⟨?_, find_unique nd.2.1 ht⟩
  rw [List.find?_eq_none]
  intro x hx e
  exact nd.2.2 _ (List.mem_map_of_mem hx) _ (List.mem_map_of_mem ht) (of_decide_eq_true e)

/-- **C55 (terminals)**.  The node of a terminal has all attributes of its XML element, prefixed with `tiger:`, and its word as `label` and as token string.
The only other attributes are `layers` and, if it is the root of the sentence, `tokens`. -/
theorem c55_terminal_attributes (name ns : String) (ss : List TigerS) (hd : ValidDoc ns ss) (g : DG) (hg : tigerRead name ns ss = .ok g) (s : TigerS) (hs : s ∈ ss) (t : TigerT) (ht : t ∈ s.terms) :
    (∀ k v, find t.attrs k = some v → k ≠ "token" → g.nodeAttr t.node (qual "tiger" k) = some (.atom (.str v))) ∧
    (∃ w, find t.attrs "word" = some w ∧ g.nodeAttr t.node "label" = some (.atom (.str w)) ∧ g.nodeAttr t.node "tiger:token" = some (.atom (.str w))) ∧
    ∀ k v, g.nodeAttr t.node k = some v → k = "layers" ∨ k = "label" ∨ k = "tiger:token" ∨ (k = "tokens" ∧ t.node = s.root) ∨ ∃ k' ∈ keys t.attrs, k = qual "tiger" k' := by
  obtain ⟨g', e, d, _⟩ := tigerRead_graph (name := name) hd
  rw [e] at hg
  obtain rfl := Except.ok.inj hg
  have hv := hd.valid s hs
  have hm : t.node ∈ s.declared := List.mem_append_left _ (List.mem_map_of_mem ht)
  have hA : ∀ k, k ≠ "layers" → k ≠ "tokens" → g'.nodeAttr t.node k = termAttr "tiger" t k := by
    intro k h1 h2
    rw [d.attr s hs _ hm k h1]
    unfold sentAttr
    rw [if_neg h2, find_term hv ht]
  have htok : "tiger:token" = qual "tiger" "token" := by decide
  refine ⟨?_, ?_, ?_⟩
  · intro k v hk hne
    rw [hA _ (fun h => qual_ne_plain (by decide) h) (fun h => qual_ne_plain (by decide) h)]
    unfold termAttr
    rw [if_neg, find_xmlAttrs, hk]
    · rfl
    · rintro (h | h)
      · exact qual_ne_plain (by decide) h
      · exact hne (qual_inj h)
  · obtain ⟨w, hw⟩ := (mem_keys_iff _ _).1 ((hv.term t ht).1.2 "word" (by simp))
    refine ⟨w, hw, ?_, ?_⟩
    · rw [hA _ (by decide) (by decide)]
      simp [termAttr, xval, hw, strV]
    · rw [hA _ (by decide) (by decide), htok]
      simp [termAttr, xval, hw, strV]
  · intro k v h
    by_cases h1 : k = "layers"
    · exact .inl h1
    by_cases h2 : k = "tokens"
    · subst h2
      rw [d.attr s hs _ hm _ h1] at h
      unfold sentAttr at h
      rw [if_pos rfl] at h
      split at h
      · rename_i hr
        exact .inr (.inr (.inr (.inl ⟨rfl, hr⟩)))
      · cases h
    · rw [hA k h1 h2] at h
      unfold termAttr at h
      split at h
      · rename_i hk
        rcases hk with hk | hk
        · exact .inr (.inl hk)
        · exact .inr (.inr (.inl (hk.trans htok.symm)))
      · have := (mem_keys_iff _ _).2 ⟨v, h⟩
        rw [keys_xmlAttrs] at this
        obtain ⟨k', hk', rfl⟩ := List.mem_map.1 this
        exact .inr (.inr (.inr (.inr ⟨k', hk', rfl⟩)))

/-- **C55 (nonterminals)**.  The node of a nonterminal has all attributes of its XML element, prefixed with `tiger:`, and its category as `label`; the root of the sentence also lists the tokens of the sentence. -/
theorem c55_nonterminal_attributes (name ns : String) (ss : List TigerS) (hd : ValidDoc ns ss) (g : DG) (hg : tigerRead name ns ss = .ok g) (s : TigerS) (hs : s ∈ ss) (t : TigerNt) (ht : t ∈ s.nts) :
    (∀ k v, find t.attrs k = some v → g.nodeAttr t.node (qual "tiger" k) = some (.atom (.str v))) ∧
    (∃ c, find t.attrs "cat" = some c ∧ g.nodeAttr t.node "label" = some (.atom (.str c))) ∧
    (t.node = s.root → g.nodeAttr t.node "tokens" = some (idList (naturalSorted s.toks))) ∧
    ∀ k v, g.nodeAttr t.node k = some v → k = "layers" ∨ k = "label" ∨ (k = "tokens" ∧ t.node = s.root) ∨ ∃ k' ∈ keys t.attrs, k = qual "tiger" k' := by
  obtain ⟨g', e, d, _⟩ := tigerRead_graph (name := name) hd
  rw [e] at hg
  obtain rfl := Except.ok.inj hg
  have hv := hd.valid s hs
  have hm : t.node ∈ s.declared := List.mem_append_right _ (List.mem_map_of_mem ht)
  have hA : ∀ k, k ≠ "layers" → k ≠ "tokens" → g'.nodeAttr t.node k = ntAttr "tiger" t k := by
    intro k h1 h2
    rw [d.attr s hs _ hm k h1]
    unfold sentAttr
    rw [if_neg h2, (find_nt hv ht).1, (find_nt hv ht).2]
  refine ⟨?_, ?_, ?_, ?_⟩
  · intro k v hk
    rw [hA _ (fun h => qual_ne_plain (by decide) h) (fun h => qual_ne_plain (by decide) h)]
    unfold ntAttr
    rw [if_neg (fun h => qual_ne_plain (by decide) h), find_xmlAttrs, hk]
    rfl
  · obtain ⟨w, hw⟩ := (mem_keys_iff _ _).1 ((hv.nt t ht).1.2 "cat" (by simp))
    refine ⟨w, hw, ?_⟩
    rw [hA _ (by decide) (by decide)]
    simp [ntAttr, xval, hw, strV]
  · intro hr
    rw [d.attr s hs _ hm _ (by decide)]
    unfold sentAttr
    rw [if_pos rfl, if_pos hr]
    rfl
  · intro k v h
    by_cases h1 : k = "layers"
    · exact .inl h1
    by_cases h2 : k = "tokens"
    · subst h2
      rw [d.attr s hs _ hm _ h1] at h
      unfold sentAttr at h
      rw [if_pos rfl] at h
      split at h
      · rename_i hr
        exact .inr (.inr (.inl ⟨rfl, hr⟩))
      · cases h
    · rw [hA k h1 h2] at h
      unfold ntAttr at h
      split at h
      · rename_i hk
        exact .inr (.inl hk)
      · have := (mem_keys_iff _ _).2 ⟨v, h⟩
        rw [keys_xmlAttrs] at this
        obtain ⟨k', hk', rfl⟩ := List.mem_map.1 this
        exact .inr (.inr (.inr ⟨k', hk', rfl⟩))

example : ∃ g, tigerRead "f.xml" "tiger" [sampleTiger1, sampleTiger2] = .ok g ∧ g.nodeAttr (.str "s1_2") "tiger:pos" = some (.atom (.str "NN")) ∧ g.nodeAttr (.str "s1_501") "label" = some (.atom (.str "NP")) := by
  have hd := sampleTiger_valid "tiger" (.inl rfl)
  obtain ⟨g, e, _⟩ := tigerRead_graph (name := "f.xml") hd
  refine ⟨g, e, ?_, ?_⟩
  · have := (c55_terminal_attributes _ _ _ hd g e sampleTiger1 (by simp) ⟨[("id", "s1_2"), ("word", "Frau"), ("pos", "NN")], [[("idref", "s1_501"), ("label", "SB")]]⟩ (by decide)).1 "pos" "NN" (by decide) (by decide)
    exact this
  · obtain ⟨c, hc, h⟩ := (c55_nonterminal_attributes _ _ _ hd g e sampleTiger1 (by simp) ⟨[("id", "s1_501"), ("cat", "NP")], [[("idref", "s1_1"), ("label", "NK")], [("idref", "s1_2"), ("label", "NK")]], []⟩ (by decide)).2.1
    have : c = "NP" := (Option.some.inj hc).symm
    rw [this] at h
    exact h

/-- **C55 (layers of nodes)**.  Terminals are in the layers `tiger` and `tiger:token`, and the sentence root (if it is not a terminal) is in `tiger`, `tiger:sentence`, `tiger:sentence:root` and `tiger:syntax` and no others; the other
nonterminals are in `tiger` and `tiger:syntax` – or in `tiger` and `tiger:secedge`, if the file refers to them before it declares them. -/
theorem c55_layers (name ns : String) (ss : List TigerS) (hd : ValidDoc ns ss) (g : DG) (hg : tigerRead name ns ss = .ok g) (s : TigerS) (hs : s ∈ ss) :
    (∀ t ∈ s.terms, g.NodeLayer t.node (.str "tiger") ∧ g.NodeLayer t.node (.str "tiger:token")) ∧
    (s.root ∉ s.toks → ∀ l, g.NodeLayer s.root l ↔ l ∈ [Atom.str "tiger", .str "tiger:sentence", .str "tiger:sentence:root", .str "tiger:syntax"]) ∧
    ∀ t ∈ s.nts, t.node ≠ s.root → ∀ l, g.NodeLayer t.node l ↔ l = .str "tiger" ∨ l = .str (if early s t.node then "tiger:secedge" else "tiger:syntax") := by
  obtain ⟨g', e, d, _⟩ := tigerRead_graph (name := name) hd
  rw [e] at hg
  obtain rfl := Except.ok.inj hg
  have hv := hd.valid s hs
  have nd := hv.unique
  unfold TigerS.declared at nd
  rw [List.nodup_append] at nd
  refine ⟨?_, ?_, ?_⟩
  · intro t ht
    have hm : t.node ∈ s.toks := List.mem_map_of_mem ht
    constructor
    · rw [d.layer s hs _ (List.mem_append_left _ hm)]
      unfold nodeLayers
      rw [if_pos hm]
      simp
    · rw [d.layer s hs _ (List.mem_append_left _ hm)]
      unfold nodeLayers
      rw [if_pos hm, show "tiger:token" = qual "tiger" "token" from by decide]
      simp
  · intro hr l
    rw [d.layer s hs _ hv.root]
    unfold nodeLayers
    rw [if_neg hr, if_pos rfl]
    exact Iff.rfl
  · intro t ht hr l
    have hm : t.node ∈ s.nts.map TigerNt.node := List.mem_map_of_mem ht
    rw [d.layer s hs _ (List.mem_append_right _ hm)]
    unfold nodeLayers
    rw [if_neg (fun h => nd.2.2 _ h _ hm rfl), if_neg hr]
    split
    · simp only [List.map_cons, List.map_nil, List.mem_cons, List.not_mem_nil, or_false]; exact Iff.rfl
    · simp only [List.map_cons, List.map_nil, List.mem_cons, List.not_mem_nil, or_false]; exact Iff.rfl

example : sampleTiger1.root ∉ sampleTiger1.toks ∧ early sampleTiger1 (.str "s1_501") = true ∧ early sampleTiger1 (.str "s1_500") = false := by decide

/-- **C55 (edges)**.  The edges of the document graph are exactly: for each `<edge>` an edge with its attributes and label, of type "spans" if it leads to a terminal and "dominates" otherwise; for each `<secedge>` a pointing edge with its
attributes; an edge from the root of the sentence to each node without any edge; an edge from the document root to each sentence root. -/
theorem c55_edges (name ns : String) (ss : List TigerS) (hd : ValidDoc ns ss) (g : DG) (hg : tigerRead name ns ss = .ok g) : EdgesAre g (docEdges ns ss) := by
  obtain ⟨g', e, d, _⟩ := tigerRead_graph (name := name) hd
  rw [e] at hg
  obtain rfl := Except.ok.inj hg
  exact d.edges

example : (docEdges "tiger" [sampleTiger1, sampleTiger2]).map (fun e => (e.source, e.target)) =
    [(.str "s1_2", .str "s1_501"), (.str "s1_500", .str "s1_501"), (.str "s1_500", .str "s1_501"), (.str "s1_501", .str "s1_1"), (.str "s1_501", .str "s1_2"), (.str "s1_500", .str "s1_10"), (.str "tiger:root_node", .str "s1_500"),
     (.str "tiger:VROOT", .str "s2_1"), (.str "tiger:VROOT", .str "s2_2"), (.str "tiger:root_node", .str "tiger:VROOT")] := by decide +kernel

/-- **C55 (tokens)**.  The token list contains the terminals of the first sentence, then those of the second, …, within each sentence in natural order of their IDs; if this is their order in the file – as it is for numbered IDs –, the token
list is the list of all terminals of the file. -/
theorem c55_tokens (name ns : String) (ss : List TigerS) (hd : ValidDoc ns ss) (g : DG) (hg : tigerRead name ns ss = .ok g) :
    g.tokens = ss.flatMap (fun s => naturalSorted s.toks) ∧ List.Perm g.tokens (ss.flatMap TigerS.toks) ∧
    ((∀ s ∈ ss, s.toks.Pairwise (fun a b => naturalLe a b = true)) → g.tokens = ss.flatMap TigerS.toks) := by
  obtain ⟨g', e, d, -⟩ := tigerRead_graph (name := name) hd
  rw [e] at hg
  obtain rfl := Except.ok.inj hg
  refine ⟨d.tokens, ?_, ?_⟩
  · rw [d.tokens]
    clear d e hd
    induction ss with
    | nil => exact List.Perm.refl _
    | cons s ss ih =>
      rw [List.flatMap_cons, List.flatMap_cons]
      exact (pySorted_perm s.toks).append ih
  · intro h
    rw [d.tokens]
    clear d e hd
    induction ss with
    | nil => rfl
    | cons s ss ih =>
      rw [List.flatMap_cons, List.flatMap_cons, ih (fun x hx => h x (List.mem_cons_of_mem _ hx))]
      congr 1
      exact pySorted_of_sorted (h s (by simp))

example : ∀ s ∈ [sampleTiger1, sampleTiger2], s.toks.Pairwise (fun a b => naturalLe a b = true) := by decide +kernel

/-- **C55 (token strings)**.  If the namespace is "tiger", the default, `get_tokens()` gives for each token, in the order of the token list, the word of the terminal. -/
theorem c55_token_strings_partial (name : String) (ss : List TigerS) (hd : ValidDoc "tiger" ss) (g : DG) (hg : tigerRead name "tiger" ss = .ok g) :
    (∀ s ∈ ss, ∀ t ∈ s.terms, ∀ w, find t.attrs "word" = some w → g.getToken t.node = .ok (.atom (.str w))) ∧ (∃ xs, g.getTokens = (xs, none) ∧ xs.map Prod.fst = g.tokens) ∧ ∃ strs, g.HasTokens strs := by
  have hd' := hd
  obtain ⟨g', e, d, _⟩ := tigerRead_graph (name := name) hd
  have htok : ∀ s ∈ ss, ∀ t ∈ s.terms, g.nodeAttr t.node (qual g.ns "token") = some (.atom (.str (xval t.attrs "word"))) := by
    intro s hs t ht
    obtain ⟨w, hw, _, h⟩ := (c55_terminal_attributes name "tiger" ss hd g hg s hs t ht).2.1
    rw [e] at hg
    obtain rfl := Except.ok.inj hg
    rw [d.ns, show qual "tiger" "token" = "tiger:token" from by decide, h]
    simp [xval, hw]
  have hget : ∀ s ∈ ss, ∀ t ∈ s.terms, g.getToken t.node = .ok (.atom (.str (xval t.attrs "word"))) := by
    intro s hs t ht
    unfold getToken
    exact getAttr_ok.2 (htok s hs t ht)
  have hin : ∀ n ∈ g.tokens, ∃ s ∈ ss, ∃ t ∈ s.terms, n = t.node := by
    intro n hn
    have := (c55_tokens name "tiger" ss hd g hg).2.1.mem_iff.1 hn
    obtain ⟨s, hs, h⟩ := List.mem_flatMap.1 this
    obtain ⟨t, ht, rfl⟩ := List.mem_map.1 h
    exact ⟨s, hs, t, ht, rfl⟩
  refine ⟨?_, ?_, ?_⟩
  · intro s hs t ht w hw
    rw [hget s hs t ht]
    simp [xval, hw]
  · unfold getTokens
    revert hin
    generalize g.tokens = ts
    intro hin
    induction ts with
    | nil => exact ⟨[], rfl, rfl⟩
    | cons n ts ih =>
      obtain ⟨xs, hx, hm⟩ := ih (fun x hx => hin x (List.mem_cons_of_mem _ hx))
      obtain ⟨s, hs, t, ht, rfl⟩ := hin n (by simp)
      refine ⟨(t.node, .atom (.str (xval t.attrs "word"))) :: xs, ?_, by rw [List.map_cons, hm]⟩
      unfold Gen.collect
      simp only [hget s hs t ht, hx]
  · unfold HasTokens
    revert hin
    generalize g.tokens = ts
    intro hin
    induction ts with
    | nil => exact ⟨[], .nil⟩
    | cons n ts ih =>
      obtain ⟨strs, h⟩ := ih (fun x hx => hin x (List.mem_cons_of_mem _ hx))
      obtain ⟨s, hs, t, ht, rfl⟩ := hin n (by simp)
      exact ⟨xval t.attrs "word" :: strs, .cons (htok s hs t ht) h⟩

/-- **C55 (sentences)**.  The sentence list contains, in natural order, one node per sentence: the root given in the file, or the virtual root if that is a terminal. -/
theorem c55_sentences (name ns : String) (ss : List TigerS) (hd : ValidDoc ns ss) (g : DG) (hg : tigerRead name ns ss = .ok g) :
    g.sentences = naturalSorted (ss.map (fun s => if s.root ∈ s.toks then .str "tiger:VROOT" else s.root)) := by
  obtain ⟨g', e, _, h, _⟩ := tigerRead_graph (name := name) hd
  rw [e] at hg
  obtain rfl := Except.ok.inj hg
  exact h

/-- a node of the sentence below the given root: via `<edge>` elements, or without any edge -/
inductive UnderRoot (s : TigerS) : NodeId → Prop
  | root : s.root ∉ s.toks → UnderRoot s s.root
  | edge {t : TigerNt} {e : XAttrs} : t ∈ s.nts → e ∈ t.edges → UnderRoot s t.node → UnderRoot s (refNode e)
  | isolated {n : NodeId} : n ∈ isolated "tiger" s → UnderRoot s n

theorem spans_snoc {g : DG} {u v w : NodeId} (h : g.Spans u v) (h2 : g.SpanEdge v w) : g.Spans u w := by
  induction h with
  | refl => exact .step h2 (.refl _)
  | step h3 _ ih => exact .step h3 (ih h2)

theorem spans_edge {g : DG} {es : List EdgeSpec} (h : EdgesAre g es) {e : EdgeSpec} (he : e ∈ es) (h2 : find e.attrs "edge_type" = some (strV "dominates") ∨ find e.attrs "edge_type" = some (strV "spans")) {u : NodeId} (hu : g.Spans u e.source) :
    g.Spans u e.target := by
  by_cases hs : e.source = e.target
  · rw [← hs]; exact hu
  · obtain ⟨a, ⟨k, ha⟩, hm⟩ := h.complete e he
    refine spans_snoc hu ⟨hs, k, a, ?_⟩
    have := hm.1 "edge_type" (by decide)
    rcases h2 with h2 | h2
    · exact ⟨_, ha, this.trans h2, by decide⟩
    · exact ⟨_, ha, this.trans h2, by decide⟩

/-- **C55 (everything is connected)**.  Every node that the file connects to the sentence root by `<edge>` elements, and every node the file does not connect at all, can be reached from the document root via dominance and spanning edges – so
the span of the document contains the token. -/
theorem c55_connected (name ns : String) (ss : List TigerS) (hd : ValidDoc ns ss) (g : DG) (hg : tigerRead name ns ss = .ok g) (s : TigerS) (hs : s ∈ ss) (n : NodeId) (hn : UnderRoot s n) : g.Spans (.str (ns ++ ":root_node")) n := by
  have he := c55_edges name ns ss hd g hg
  have hr : NodeId.str (ns ++ ":root_node") = docRoot ns := by simp [docRoot, qual]
  have hin : ∀ e, e ∈ sentEdges "tiger" s ∨ e = sentenceEdge ns s → e ∈ docEdges ns ss := by
    intro e h
    refine List.mem_flatMap.2 ⟨s, hs, ?_⟩
    rcases h with h | rfl
    · exact List.mem_append_left _ h
    · exact List.mem_append_right _ (by simp)
  have htop : g.Spans (docRoot ns) (topNode "tiger" s) :=
    spans_edge he (hin _ (.inr rfl)) (.inl (by simp [sentenceEdge])) (Spans.refl _)
  rw [hr]
  induction hn with
  | root h =>
    unfold topNode at htop
    rw [if_neg h] at htop
    exact htop
  | @edge t e ht hee _ ih =>
    obtain ⟨pre, post, hp⟩ := List.append_of_mem ht
    have hmem : (⟨t.node, refNode e, ["tiger", qual "tiger" "edge"], xmlAttrs "tiger" e ++ [("label", strV (xval e "label")), ("edge_type", strV (if refNode e ∈ s.toks then "spans" else "dominates"))]⟩ : EdgeSpec) ∈ sentEdges "tiger" s :=
      List.mem_append_left _ (List.mem_append_right _ (mem_ntsEdges.2 ⟨pre, t, post, hp, List.mem_append_left _ (List.mem_map.2 ⟨e, hee, rfl⟩)⟩))
    refine spans_edge he (hin _ (.inl hmem)) ?_ ih
    rw [find_append, (find_eq_none_iff _ _).2 (xmlAttrs_plain (by decide))]
    by_cases h : refNode e ∈ s.toks
    · exact .inr (by simp [h, find])
    · exact .inl (by simp [h, find])
  | isolated h =>
    have hmem : attachEdge "tiger" (topNode "tiger" s) _ ∈ sentEdges "tiger" s := List.mem_append_right _ (List.mem_map.2 ⟨_, h, rfl⟩)
    exact spans_edge he (hin _ (.inl hmem)) (.inl (by simp [attachEdge])) htop

/-- every token of the first sample sentence is below the root -/
example : ∀ n ∈ sampleTiger1.toks, UnderRoot sampleTiger1 n := by
  have h0 : UnderRoot sampleTiger1 (.str "s1_500") := .root (by decide)
  have h1 : UnderRoot sampleTiger1 (.str "s1_501") := .edge (t := sampleTiger1.nts[0]) (e := [("idref", "s1_501"), ("label", "SB")]) (by decide) (by decide) h0
  have h2 : UnderRoot sampleTiger1 (.str "s1_1") := .edge (t := sampleTiger1.nts[1]) (e := [("idref", "s1_1"), ("label", "NK")]) (by decide) (by decide) h1
  have h3 : UnderRoot sampleTiger1 (.str "s1_2") := .edge (t := sampleTiger1.nts[1]) (e := [("idref", "s1_2"), ("label", "NK")]) (by decide) (by decide) h1
  have h4 : UnderRoot sampleTiger1 (.str "s1_10") := .isolated (by decide +kernel)
  intro n hn
  have : n = .str "s1_1" ∨ n = .str "s1_2" ∨ n = .str "s1_10" := by simpa [sampleTiger1, TigerS.toks, TigerT.node, xval, find] using hn
  rcases this with rfl | rfl | rfl
  · exact h2
  · exact h3
  · exact h4

/-! ### what does not hold -/

/-- reading with another namespace: the token attributes still have the prefix "tiger", so `get_tokens()` raises KeyError -/
theorem c55_fails_other_namespace : ValidDoc "syntax" [sampleTiger1, sampleTiger2] ∧ ((tigerRead "f.xml" "syntax" [sampleTiger1, sampleTiger2]).toOption.map (fun g => (g.tokens.length, g.getTokens))) = some (5, [], some .key) :=
  ⟨sampleTiger_valid _ (.inr rfl), by decide +kernel⟩

/-- a nonterminal with a secondary edge in a sentence without ordinary edges -/
def sampleTiger3 : TigerS := ⟨[("id", "s1")], [("root", "n")], [⟨[("id", "t"), ("word", "Ja")], []⟩], [⟨[("id", "n"), ("cat", "S")], [], [[("idref", "t"), ("label", "SB")]]⟩]⟩

/-- NameError: the reader uses a variable of the loop over ordinary edges when it reads secondary edges -/
theorem c55_fails_secedge_without_edge : tigerRead "f.xml" "tiger" [sampleTiger3] = .error .name := by decide +kernel

/-- the `label` of a secondary edge of a nonterminal is the label of some ordinary edge, not its own ("OA") -/
theorem c55_fails_secedge_label : ((tigerRead "f.xml" "tiger" [sampleTiger1]).toOption.map (fun g => (g.edges.filter (fun e => decide (e.1 = .str "s1_500" ∧ e.2.1 = .str "s1_501"))).map (fun e => (find e.2.2.2 "label", find e.2.2.2 "tiger:label", find e.2.2.2 "edge_type")))) =
    some [(some (strV "SB"), some (strV "SB"), some (strV "dominates")), (some (strV "SB"), some (strV "OA"), some (strV "points_to"))] := by decide +kernel

/-- a sentence of one token -/
def sampleTiger4 (i : String) : TigerS := ⟨[("id", i)], [("root", i ++ "_1")], [⟨[("id", i ++ "_1"), ("word", "Ja")], []⟩], []⟩

/-- a sentence that consists of one terminal: its virtual root is not connected to the token, so the span of the document is empty; and all such sentences have the same virtual root -/
theorem c55_fails_one_token : ((tigerRead "f.xml" "tiger" [sampleTiger4 "s1", sampleTiger4 "s2"]).toOption.map (fun g => (g.tokens, g.sentences, g.edges.map (fun e => (e.1, e.2.1))))) =
    some ([.str "s1_1", .str "s2_1"], [.str "tiger:VROOT", .str "tiger:VROOT"], [(.str "tiger:root_node", .str "tiger:VROOT"), (.str "tiger:root_node", .str "tiger:VROOT")]) := by decide +kernel

/-- a token that has a secondary edge only -/
def sampleTiger5 : TigerS := ⟨[("id", "s1")], [("root", "n")], [⟨[("id", "t1"), ("word", "Ja")], []⟩, ⟨[("id", "t2"), ("word", "doch")], [[("idref", "t1")]]⟩], [⟨[("id", "n"), ("cat", "S")], [[("idref", "t1"), ("label", "HD")]], []⟩]⟩

/-- a token with nothing but a secondary edge counts as connected: no dominance or spanning edge leads to it -/
theorem c55_fails_secedge_only : ((tigerRead "f.xml" "tiger" [sampleTiger5]).toOption.map (fun g => (g.edges.filter (fun e => decide (e.2.1 = .str "t2"))).length)) = some 0 := by decide +kernel

/-- a nonterminal that the file refers to before it declares it is not in the layer of nonterminals -/
theorem c55_fails_forward_reference : ((tigerRead "f.xml" "tiger" [sampleTiger1]).toOption.map (fun g => g.nodeAttr (.str "s1_501") "layers")) = some (some (.set [.str "tiger", .str "tiger:secedge"])) := by decide +kernel

end DG
end Dg
