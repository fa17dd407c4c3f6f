import Verif.Lemmas.Conll
import Verif.Lemmas.SpanTree
import Verif.Props.C08
import Verif.Props.C16
import Verif.Props.C18
import Batteries.Lean.Except

/-! C40: the CoNLL 2009 export. -/

namespace Dg
open Dict
namespace DG

/-- chains of an acyclic relation contain no element twice -/
theorem Follows.nodup {R : NodeId → NodeId → Prop} (hac : Acyclic R) {c : List NodeId} (h : Follows R c) : c.Nodup := by
  have key : ∀ (c : List NodeId), (∀ pre x y post, c = pre ++ x :: y :: post → R x y) → c.Pairwise (fun x y => Relation.TransGen R x y) := by
    intro c
    induction c with
    | nil => intro _; exact .nil
    | cons x c ih =>
      intro h
      have ih' := ih (fun pre a b post e => h (x :: pre) a b post (by rw [e]; rfl))
      refine .cons ?_ ih'
      intro z hz
      cases c with
      | nil => simp at hz
      | cons y c =>
        have hxy := h [] x y c rfl
        rcases List.mem_cons.1 hz with rfl | hz
        · exact .single hxy
        · exact .head hxy (List.rel_of_pairwise_cons ih' hz)
  refine List.Pairwise.imp ?_ (key c h.2)
  rintro a b hab rfl
  exact hac a hab

/-- **C40 (rows), general form**.  For every reachable document whose sentences list their tokens: if the spans of the markables are known (`span`, without repeated tokens) and the chains
have no repeated elements, the export succeeds and has, for each sentence in order, one row per token in order, numbered from 1, with the token string and a coreference column
that describes exactly the markables covering the token. -/
theorem c40_rows_of_spans (g : DG) (hr : Reachable g) (hl : AllLayered g) (layer markableLayer : Option String) (fuel : Nat) (chains : List (List NodeId)) (span : NodeId → List NodeId)
    (hc : getPointingChains fuel g layer = .ok chains) (hcn : ∀ c ∈ chains, c.Nodup)
    (hs : ∀ m, g.HasNode m → g.NodeLayer m (.str (markableLayer.getD (g.ns ++ (":" ++ "markable")))) → g.getSpan fuel m = .ok (span m) ∧ (span m).Nodup)
    (ss : List (List (NodeId × String))) (hss : List.Forall₂ (fun s ts => g.SentenceTokens s (ts.map Prod.fst) ∧ ∀ p ∈ ts, g.TokenStr p.1 p.2) g.sentences ss) :
    ∃ ms rss, (∀ m, m ∈ ms ↔ g.HasNode m ∧ g.NodeLayer m (.str (markableLayer.getD (g.ns ++ (":" ++ "markable"))))) ∧ ms.Nodup ∧ conllRows fuel g layer markableLayer = .ok rss ∧
      List.Forall₂ (fun ts rs => rs.map ConllRow.number = List.range' 1 ts.length ∧ rs.map ConllRow.token = ts.map (fun p => p.2.toList) ∧
        List.Forall₂ (fun p r => CorefColumn chains ms span p.1 r.coref) ts rs) ss rss := by
  obtain ⟨ms, hms, hnd, _, hmem⟩ := c08_select_nodes_by_layer g hr hl (.one (markableLayer.getD (g.ns ++ (":" ++ "markable"))))
  have hmem' : ∀ m, m ∈ ms ↔ g.HasNode m ∧ g.NodeLayer m (.str (markableLayer.getD (g.ns ++ (":" ++ "markable")))) := hmem
  obtain ⟨st, e1, ok⟩ := mapsFold (g := g) (fuel := fuel) ms [] _ (mapsOK_init chains hcn span) (fun m hm => (hs m ((hmem' m).1 hm).1 ((hmem' m).1 hm).2).1) (by simpa using hnd)
  rw [List.nil_append] at ok
  have hmaps : conllMaps fuel g layer (markableLayer.getD (g.ns ++ (":" ++ "markable"))) = .ok st := by
    unfold conllMaps
    rw [hc]
    simp only [bind, Except.bind]
    rw [hms]
    simp only
    rw [e1]
    rfl
  have hcol : ∀ t, ∃ c, conllCoref st t = .ok c ∧ CorefColumn chains ms span t c :=
    fun t => conllCoref_spec ok (fun m hm => (hs m ((hmem' m).1 hm).1 ((hmem' m).1 hm).2).2) t
  have hsent : ∀ (sents : List NodeId) (ss : List (List (NodeId × String))), List.Forall₂ (fun s ts => g.SentenceTokens s (ts.map Prod.fst) ∧ ∀ p ∈ ts, g.TokenStr p.1 p.2) sents ss →
      ∃ rss, mapE (g.conllSentence st) sents = .ok rss ∧ List.Forall₂ (fun ts rs => rs.map ConllRow.number = List.range' 1 ts.length ∧ rs.map ConllRow.token = ts.map (fun p => p.2.toList) ∧
        List.Forall₂ (fun p r => CorefColumn chains ms span p.1 r.coref) ts rs) ss rss := by
    intro sents ss h
    induction h with
    | nil => exact ⟨[], rfl, .nil⟩
    | @cons s ts sents ss h1 _ ih =>
      obtain ⟨rss, e2, e3⟩ := ih
      obtain ⟨rs, e4, e5, e6, e7⟩ := conllRowsFrom_spec hcol (ts.map Prod.fst) 1 (ts.map Prod.snd) (by
        rw [List.forall₂_map_left_iff, List.forall₂_map_right_iff, List.forall₂_same]; exact fun p hp => h1.2 p hp)
      refine ⟨rs :: rss, ?_, .cons ⟨by simpa using e5, ?_, ?_⟩ e3⟩
      · rw [mapE_ok] at e2 ⊢
        refine .cons ?_ e2
        unfold conllSentence
        rw [sentenceTokens_ok h1.1]
        exact e4
      · rw [e6, List.map_map]; rfl
      · rwa [List.forall₂_map_left_iff] at e7
  obtain ⟨rss, e2, e3⟩ := hsent g.sentences ss hss
  refine ⟨ms, rss, hmem', hnd, ?_, e3⟩
  unfold conllRows
  rw [show conllMaps fuel g layer (markableLayer.getD (qual g.ns "markable")) = .ok st from hmaps]
  exact e2

/-- **C40 (rows), partial**.  For every reachable document in which all nodes have layers, all edges have a type, the pointing relations and the other edges are acyclic, no two paths lead from a markable to the same
node, and whose sentences list their tokens: the export succeeds.  For each sentence in order it has one row per token in order, numbered from 1, with the token string; the coreference
column has one entry per markable covering the token and chain of this markable: the number of the chain (among the maximal pointing chains; markables in no chain have a number of their own),
an opening bracket iff the token is the first one dominated by the markable, and a closing bracket iff it is the last one.
Missing: documents in which a token is dominated by a markable via several paths, where the closing bracket is lost (`c40_fails_on_dags`). -/
theorem c40_rows_partial (g : DG) (hr : Reachable g) (hl : AllLayered g) (hty : g.Typed) (layer markableLayer : Option String) (hp : ∀ l, layer = some l → plain l = true)
    (hac : Acyclic (g.PointsTo layer)) (hsa : g.SpanAcyclic)
    (hu : ∀ m, g.NodeLayer m (.str (markableLayer.getD (g.ns ++ (":" ++ "markable")))) → g.SpanTreeBelow m) (fuel : Nat) (hf : g.nodes.length < fuel)
    (ss : List (List (NodeId × String))) (hss : List.Forall₂ (fun s ts => g.SentenceTokens s (ts.map Prod.fst) ∧ ∀ p ∈ ts, g.TokenStr p.1 p.2) g.sentences ss) :
    ∃ chains ms span rss, getPointingChains fuel g layer = .ok chains ∧ chains.Nodup ∧
      (∀ c, c ∈ chains ↔ Follows (g.PointsTo layer) c ∧ StartsFresh (g.PointsTo layer) c ∧ EndsDead (g.PointsTo layer) c) ∧
      ms.Nodup ∧ (∀ m, m ∈ ms ↔ g.HasNode m ∧ g.NodeLayer m (.str (markableLayer.getD (g.ns ++ (":" ++ "markable"))))) ∧
      (∀ m ∈ ms, (∀ t, t ∈ span m ↔ g.IsToken t ∧ g.Spans m t) ∧ (span m).Nodup ∧ (span m).Pairwise (fun a b => naturalLe a b = true)) ∧
      conllRows fuel g layer markableLayer = .ok rss ∧
      List.Forall₂ (fun ts rs => rs.map ConllRow.number = List.range' 1 ts.length ∧ rs.map ConllRow.token = ts.map (fun p => p.2.toList) ∧
        List.Forall₂ (fun p r => CorefColumn chains ms span p.1 r.coref) ts rs) ss rss := by
  obtain ⟨chains, hc, hcn, hcm⟩ := c19_chains_are_the_maximal_paths g hr layer hp hty hac fuel hf
  have hex : ∀ m, g.HasNode m → ∃ sp, g.getSpan fuel m = .ok sp := fun m hm =>
    c16_span_terminates g hr hsa m hm (fun u v k a _ _ h => hty u v k a h) fuel (by omega)
  let span : NodeId → List NodeId := fun m => match g.getSpan fuel m with
    | .ok sp => sp
    | .error _ => []
  have hspan : ∀ m, g.HasNode m → g.getSpan fuel m = .ok (span m) := by
    intro m hm
    obtain ⟨sp, h⟩ := hex m hm
    simp only [span, h]
  obtain ⟨ms, rss, h1, h2, h3, h4⟩ := c40_rows_of_spans g hr hl layer markableLayer fuel chains span hc (fun c hc' => Follows.nodup hac ((hcm c).1 hc').1)
    (fun m hm hl => ⟨hspan m hm, getSpan_nodup_below hr.inv.wf hsa fuel m _ (hu m hl) (hspan m hm)⟩) ss hss
  refine ⟨chains, ms, span, rss, hc, hcn, hcm, h2, h1, ?_, h3, h4⟩
  intro m hm
  have hs := hspan m ((h1 m).1 hm).1
  have := c16_span_is_dominated_tokens g hr fuel m _ hs
  exact ⟨this.1, getSpan_nodup_below hr.inv.wf hsa fuel m _ (hu m ((h1 m).1 hm).2) hs, this.2⟩

/-- **C40 (chain numbers)**.  The number of a chain identifies it: markables in chains have the positions of their chains as numbers, every markable without chain has one number, which
no other markable has. -/
theorem c40_chain_numbers (chains : List (List NodeId)) (ms : List NodeId) :
    (∀ m ∈ chains.flatten, ∀ i, i ∈ chainIds chains ms m ↔ ∃ c, chains[i]? = some c ∧ m ∈ c) ∧
    (∀ m ∈ ms, m ∉ chains.flatten → ∃ i, chainIds chains ms m = [i] ∧ chains.length ≤ i ∧ ∀ m' ∈ ms, i ∈ chainIds chains ms m' → m' = m) := by
  constructor
  · intro m hm i
    unfold chainIds
    rw [if_pos hm, List.mem_filter, decide_eq_true_eq, List.mem_range]
    constructor
    · exact fun h => h.2
    · rintro ⟨c, h1, h2⟩
      exact ⟨(List.getElem?_eq_some_iff.1 h1).1, c, h1, h2⟩
  · intro m hm hc
    refine ⟨_, by unfold chainIds; rw [if_neg hc], Nat.le_add_right _ _, ?_⟩
    intro m' hm' hi
    unfold chainIds at hi
    split at hi
    · rw [List.mem_filter, List.mem_range] at hi
      omega
    · rename_i hc'
      rw [List.mem_singleton] at hi
      have hidx : (ms.filter (fun x => decide (x ∉ chains.flatten))).idxOf m = (ms.filter (fun x => decide (x ∉ chains.flatten))).idxOf m' := by omega
      have h1 : m ∈ ms.filter (fun x => decide (x ∉ chains.flatten)) := List.mem_filter.2 ⟨hm, decide_eq_true hc⟩
      have h2 : m' ∈ ms.filter (fun x => decide (x ∉ chains.flatten)) := List.mem_filter.2 ⟨hm', decide_eq_true hc'⟩
      have e1 := List.getElem?_idxOf h1
      have e2 := List.getElem?_idxOf h2
      rw [hidx] at e1
      exact Option.some.inj (e2.symm.trans e1)

/-- **C40 (format)**.  The file consists of the header line, for each sentence one line per row followed by an empty line, and the footer line; each row has 15 tab-separated columns: the
number, the token, twelve underscores and the coreference column, which is an underscore or the list of the entries, separated by `|`. -/
theorem c40_format (fuel : Nat) (g : DG) (layer markableLayer : Option String) (rss : List (List ConllRow)) (h : conllRows fuel g layer markableLayer = .ok rss)
    (hn : ∀ rs ∈ rss, ∀ r ∈ rs, '\n' ∉ r.token ∧ '\t' ∉ r.token) :
    ∃ out lines, conllStr fuel g layer markableLayer = .ok out ∧ splitChars '\n' out = "#begin document (__); __".toList :: (lines.flatMap (fun ls => ls ++ [[]])) ++ ["#end document".toList] ∧
      List.Forall₂ (List.Forall₂ (fun (r : ConllRow) line => ∃ i c, splitChars '\t' line = i :: r.token :: (List.replicate 12 ['_'] ++ [c]) ∧ parseDec i = r.number ∧
        (r.coref = none → c = ['_']) ∧ (∀ es, r.coref = some es → es ≠ [] → ∃ fs, splitChars '|' c = fs ∧
          List.Forall₂ (fun (e : ConllEntry) f => ∃ d, parseDec d = e.chain ∧ (∀ x ∈ d, isDigitChar x = true) ∧ f = (if e.opens then ['('] else []) ++ d ++ (if e.closes then [')'] else [])) es fs))) rss lines := by
  have hdig : ∀ (c : Char), isDigitChar c = false → ∀ n, c ∉ decimal n := by
    intro c hc n hm
    rw [decimal_digits n c hm] at hc
    exact absurd hc (by decide)
  have hent : ∀ (c : Char), isDigitChar c = false → c ≠ '(' → c ≠ ')' → ∀ e : ConllEntry, c ∉ e.render := by
    intro c hc h1 h2 e hm
    unfold ConllEntry.render at hm
    simp only [List.mem_append] at hm
    rcases hm with (hm | hm) | hm
    · split at hm
      · simp at hm; exact h1 hm
      · simp at hm
    · exact hdig c hc _ hm
    · split at hm
      · simp at hm; exact h2 hm
      · simp at hm
  have hjoin : ∀ (c : Char) (xs : List (List Char)), c ≠ '|' → (∀ x ∈ xs, c ∉ x) → c ∉ joinChars ['|'] xs := by
    intro c xs hc
    induction xs with
    | nil => simp [joinChars]
    | cons x xs ih =>
      intro hx
      cases xs with
      | nil => simpa [joinChars] using hx x (by simp)
      | cons y ys =>
        rw [joinChars]
        simp only [List.mem_append, List.mem_singleton, not_or]
        exact ⟨⟨hx x (by simp), hc⟩, ih (fun z hz => hx z (List.mem_cons_of_mem _ hz))⟩
  have hcoref : ∀ (c : Char), isDigitChar c = false → c ≠ '(' → c ≠ ')' → c ≠ '_' → c ≠ '|' → ∀ o, c ∉ renderCoref o := by
    intro c hc h1 h2 h3 h4 o
    cases o with
    | none => simpa [renderCoref] using h3
    | some es =>
      refine hjoin c _ h4 ?_
      intro x hx
      obtain ⟨e, _, rfl⟩ := List.mem_map.1 hx
      exact hent c hc h1 h2 e
  let rowLine : ConllRow → List Char := fun r => decimal r.number ++ '\t' :: r.token ++ (List.replicate 12 ['\t', '_']).flatten ++ '\t' :: renderCoref r.coref
  have hrow : ∀ r : ConllRow, r.render = rowLine r ++ ['\n'] := by
    intro r
    simp [ConllRow.render, rowLine]
  have hrowNl : ∀ r : ConllRow, '\n' ∉ r.token → '\n' ∉ rowLine r := by
    intro r hr
    have h1 : '\n' ∉ (List.replicate 12 ['\t', '_']).flatten := by decide
    have h2 := hdig '\n' (by decide) r.number
    have h3 := hcoref '\n' (by decide) (by decide) (by decide) (by decide) (by decide) r.coref
    simp only [rowLine, List.mem_append, List.mem_cons, not_or]
    exact ⟨⟨⟨h2, by decide, hr⟩, h1⟩, by decide, h3⟩
  have hrows : ∀ (rs : List ConllRow) (rest : List Char), (∀ r ∈ rs, '\n' ∉ r.token) →
      splitChars '\n' (rs.flatMap ConllRow.render ++ '\n' :: rest) = rs.map rowLine ++ [] :: splitChars '\n' rest := by
    intro rs rest
    induction rs with
    | nil => intro _; simp [splitChars]
    | cons r rs ih =>
      intro hh
      rw [List.flatMap_cons, hrow, List.append_assoc, List.append_assoc, List.singleton_append, splitChars_append_sep _ _ (hrowNl r (hh r (by simp))), ih (fun x hx => hh x (List.mem_cons_of_mem _ hx))]
      rfl
  have hsents : ∀ (rss : List (List ConllRow)) (rest : List Char), (∀ rs ∈ rss, ∀ r ∈ rs, '\n' ∉ r.token) →
      splitChars '\n' (rss.flatMap (fun rs => rs.flatMap ConllRow.render ++ ['\n']) ++ rest) = (rss.map (List.map rowLine)).flatMap (fun ls => ls ++ [[]]) ++ splitChars '\n' rest := by
    intro rss rest
    induction rss with
    | nil => intro _; rfl
    | cons rs rss ih =>
      intro hh
      rw [List.flatMap_cons, List.append_assoc, List.append_assoc, List.singleton_append, hrows _ _ (hh rs (by simp)), ih (fun x hx => hh x (List.mem_cons_of_mem _ hx)), List.map_cons, List.flatMap_cons]
      simp
  refine ⟨_, rss.map (List.map rowLine), by unfold conllStr; rw [h]; rfl, ?_, ?_⟩
  · have e1 : "#begin document (__); __\n".toList = "#begin document (__); __".toList ++ ['\n'] := by decide
    rw [e1, List.append_assoc, List.append_assoc, List.singleton_append, splitChars_append_sep _ _ (by decide), hsents _ _ (fun rs hrs r hr => (hn rs hrs r hr).1), splitChars_no_sep _ _ (by decide)]
    rfl
  · rw [List.forall₂_map_right_iff, List.forall₂_same]
    intro rs hrs
    rw [List.forall₂_map_right_iff, List.forall₂_same]
    intro r hr
    refine ⟨decimal r.number, renderCoref r.coref, ?_, parseDec_decimal _, ?_, ?_⟩
    · have hu : ∀ (n : Nat) (rest : List Char), '\t' ∉ rest → splitChars '\t' ((List.replicate n ['\t', '_']).flatten ++ '\t' :: rest) = [] :: (List.replicate n ['_'] ++ [rest]) := by
        intro n rest hrest
        induction n with
        | zero => simp [splitChars, splitChars_no_sep _ _ hrest]
        | succ n ih =>
          rw [List.replicate_succ, List.flatten_cons, List.append_assoc]
          show splitChars '\t' ([] ++ '\t' :: ('_' :: ((List.replicate n ['\t', '_']).flatten ++ '\t' :: rest))) = _
          rw [splitChars_append_sep _ _ (by simp)]
          have : splitChars '\t' ('_' :: ((List.replicate n ['\t', '_']).flatten ++ '\t' :: rest)) = List.replicate (n + 1) ['_'] ++ [rest] := by
            cases n with
            | zero =>
              show splitChars '\t' (['_'] ++ '\t' :: rest) = _
              rw [splitChars_append_sep _ _ (by decide), splitChars_no_sep _ _ hrest]
              rfl
            | succ n =>
              rw [splitChars, if_neg (by decide), ih]
              rfl
          rw [this]
      have htok := (hn rs hrs r hr).2
      have hc := hcoref '\t' (by decide) (by decide) (by decide) (by decide) (by decide) r.coref
      show splitChars '\t' (decimal r.number ++ '\t' :: r.token ++ (List.replicate 12 ['\t', '_']).flatten ++ '\t' :: renderCoref r.coref) = _
      rw [List.append_assoc, List.append_assoc, List.cons_append, splitChars_append_sep _ _ (hdig '\t' (by decide) _)]
      congr 1
      have hcat : ∀ (p : List Char) (n : Nat) (rest : List Char), '\t' ∉ p → '\t' ∉ rest →
          splitChars '\t' (p ++ ((List.replicate n ['\t', '_']).flatten ++ '\t' :: rest)) = p :: (List.replicate n ['_'] ++ [rest]) := by
        intro p n rest hp hrest
        induction p with
        | nil => exact hu n rest hrest
        | cons x p ih =>
          rw [List.mem_cons, not_or] at hp
          rw [List.cons_append, splitChars, if_neg (fun e => hp.1 e.symm), ih hp.2]
      exact hcat r.token 12 _ htok hc
    · intro h0; rw [h0]; rfl
    · intro es h0 hne
      rw [h0]
      refine ⟨es.map ConllEntry.render, splitChars_join _ _ (by simpa using hne) ?_, ?_⟩
      · intro x hx
        obtain ⟨e, _, rfl⟩ := List.mem_map.1 hx
        exact hent '|' (by decide) (by decide) (by decide) e
      · rw [List.forall₂_map_right_iff, List.forall₂_same]
        intro e _
        exact ⟨decimal e.chain, parseDec_decimal _, decimal_digits _, rfl⟩

/-! ### examples -/

/-- a document with a sentence of four tokens, three markables (two of them in a chain), and the given domination edges -/
def sampleConll (spans : List (String × String)) (rels : List (String × String)) : DG :=
  (DG.init "" "doc" none).run (
    [("t1", "Die"), ("t2", "Halle"), ("t3", "ist"), ("t4", "da")].map (fun p => .addNode (.str p.1) (.atom .none) .none [("doc:token", .atom (.str p.2))]) ++
    [.setTokens [.str "t1", .str "t2", .str "t3", .str "t4"], .addNode (.str "s1") (.atom .none) .none [("tokens", .list [.str "t1", .str "t2", .str "t3", .str "t4"])], .setSentences [.str "s1"]] ++
    ["m1", "m2", "m3"].map (fun m => .addNode (.str m) (.set [.str "doc", .str "doc:markable"]) .none []) ++
    spans.map (fun p => .addEdge (.str p.1) (.str p.2) (.atom .none) none .none [("edge_type", .atom (.str "spans"))]) ++
    rels.map (fun p => .addEdge (.str p.1) (.str p.2) (.atom .none) none .none [("edge_type", .atom (.str "points_to"))]))

def sampleConll1 : DG := sampleConll [("m1", "t1"), ("m1", "t2"), ("m2", "t4"), ("m3", "t2")] [("m2", "m1")]

example : sampleConll1.sentences = [.str "s1"] ∧ sampleConll1.SentenceTokens (.str "s1") [.str "t1", .str "t2", .str "t3", .str "t4"] ∧ getPointingChains 20 sampleConll1 none = .ok [[.str "m2", .str "m1"]] ∧
    conllRows 20 sampleConll1 none none = .ok [[⟨1, "Die".toList, some [⟨.str "m1", 0, true, false⟩]⟩, ⟨2, "Halle".toList, some [⟨.str "m1", 0, false, true⟩, ⟨.str "m3", 1, true, true⟩]⟩,
      ⟨3, "ist".toList, none⟩, ⟨4, "da".toList, some [⟨.str "m2", 0, true, true⟩]⟩]] := by
  refine ⟨by decide, by unfold SentenceTokens; decide, by decide +kernel, by decide +kernel⟩

example : conllStr 20 sampleConll1 none none = .ok ("#begin document (__); __\n1\tDie\t_\t_\t_\t_\t_\t_\t_\t_\t_\t_\t_\t_\t(0\n2\tHalle\t_\t_\t_\t_\t_\t_\t_\t_\t_\t_\t_\t_\t0)|(1)\n".toList ++
    "3\tist\t_\t_\t_\t_\t_\t_\t_\t_\t_\t_\t_\t_\t_\n4\tda\t_\t_\t_\t_\t_\t_\t_\t_\t_\t_\t_\t_\t(0)\n\n#end document".toList) := by decide +kernel

theorem sampleConll1_reachable : Reachable sampleConll1 := ⟨"", "doc", none, _, by decide, rfl⟩

/-- the hypotheses of `c40_rows_partial` hold for the sample -/
example : Reachable sampleConll1 ∧ AllLayered sampleConll1 ∧ sampleConll1.Typed ∧ Acyclic (sampleConll1.PointsTo none) ∧ sampleConll1.SpanAcyclic ∧
    (∀ m, sampleConll1.NodeLayer m (.str "doc:markable") → sampleConll1.SpanTreeBelow m) ∧
    List.Forall₂ (fun s (ts : List (NodeId × String)) => sampleConll1.SentenceTokens s (ts.map Prod.fst) ∧ ∀ p ∈ ts, sampleConll1.TokenStr p.1 p.2) sampleConll1.sentences
      [[(.str "t1", "Die"), (.str "t2", "Halle"), (.str "t3", "ist"), (.str "t4", "da")]] := by
  have wf := sampleConll1_reachable.inv.wf
  let rank : NodeId → Nat := fun n => if n ∈ [NodeId.str "m1", .str "m2", .str "m3"] then 1 else 0
  have hedge : ∀ u v, sampleConll1.SpanEdge u v → rank u = 1 ∧ rank v = 0 := by
    intro u v ⟨hne, k, a, x, ha, hx, hp⟩
    have hmem := (mem_edges_iff wf u v k a).2 ha
    have key : ∀ e ∈ sampleConll1.edges, followed e → rank e.1 = 1 ∧ rank e.2.1 = 0 := by decide +kernel
    exact key _ hmem ⟨hne, x, hx, hp⟩
  have hsp : ∀ m u v, sampleConll1.Spans m u → sampleConll1.SpanEdge u v → u = m := by
    intro m u v h e
    rcases h.cases_last with h | ⟨w, _, h⟩
    · exact h.symm
    · have := (hedge _ _ e).1
      rw [(hedge _ _ h).2] at this
      exact absurd this (by decide)
  refine ⟨sampleConll1_reachable, ?_, ?_, ?_, acyclic_of_rank rank (fun u v h => by rw [(hedge u v h).1, (hedge u v h).2]; decide), ?_, ?_⟩
  · intro n a h
    have hmem := (mem_nodes_iff wf _ _).2 h
    have key : ∀ p ∈ sampleConll1.nodes, (match find p.2 "layers" with | some (.set xs) => xs.all (fun x => match x with | .str _ => true | _ => false) | _ => false) = true := by decide +kernel
    have := key _ hmem
    dsimp only at this
    split at this
    · rename_i xs hx
      refine ⟨xs, hx, ?_⟩
      intro x hxs
      have h2 := List.all_eq_true.1 this x hxs
      cases x with
      | str s => exact ⟨s, rfl⟩
      | _ => simp at h2
    · simp at this
  · intro u v k a h
    have hmem := (mem_edges_iff wf u v k a).2 h
    have key : ∀ e ∈ sampleConll1.edges, (find e.2.2.2 "edge_type").isSome = true := by decide +kernel
    exact Option.isSome_iff_exists.1 (key _ hmem)
  · have hone : ∀ u v, sampleConll1.PointsTo none u v → u = .str "m2" ∧ v = .str "m1" := by
      rintro u v ⟨k, a, ha, hx, _⟩
      have hmem := (mem_edges_iff wf u v k a).2 ha
      have key : ∀ e ∈ sampleConll1.edges, find e.2.2.2 "edge_type" = some (.atom (.str "points_to")) → e.1 = .str "m2" ∧ e.2.1 = .str "m1" := by decide +kernel
      exact key _ hmem hx
    have htr : ∀ u v, Relation.TransGen (sampleConll1.PointsTo none) u v → u = .str "m2" ∧ v = .str "m1" := by
      intro u v h
      induction h with
      | single h => exact hone _ _ h
      | tail _ h ih => exact ⟨ih.1, (hone _ _ h).2⟩
    intro x hx
    have := htr x x hx
    rw [this.1] at this
    exact absurd this.2 (by decide)
  · intro m _ v u k a u' k' a' h1 h2 e1 f1 e2 f2
    obtain ⟨n1, x1, p1, q1⟩ := id f1
    obtain ⟨n2, x2, p2, q2⟩ := id f2
    have hu := hsp m u v h1 ⟨n1, k, a, x1, e1, p1, q1⟩
    have hu' := hsp m u' v h2 ⟨n2, k', a', x2, e2, p2, q2⟩
    have key : ∀ e ∈ sampleConll1.edges, ∀ e' ∈ sampleConll1.edges, e.1 = e'.1 → e.2.1 = e'.2.1 → e.2.2.1 = e'.2.2.1 := by decide +kernel
    exact ⟨hu.trans hu'.symm, key _ ((mem_edges_iff wf _ _ _ _).2 e1) _ ((mem_edges_iff wf _ _ _ _).2 e2) (hu.trans hu'.symm) rfl⟩
  · refine .cons ⟨by unfold SentenceTokens; decide, ?_⟩ .nil
    unfold TokenStr
    decide

/-- **C40 is violated** for markables that dominate a token on several paths: m1 covers 'Die Halle', but its second token has no closing bracket (the token occurs twice in the span,
and only its first position is looked up). -/
theorem c40_fails_on_dags :
    (conllRows 20 (sampleConll [("m1", "t1"), ("m1", "t2"), ("m1", "m3"), ("m3", "t2")] []) none (some "doc:markable")).map (fun rss => rss.map (fun rs => rs.map (fun r => renderCoref r.coref))) =
      .ok [["(0".toList, "0|(2)".toList, ['_'], ['_']]] := by decide +kernel

/-- a sentence without token list: KeyError -/
example : conllRows 20 { sampleConll1 with sentences := [.str "t1"] } none none = .error .key := by decide +kernel

end DG
end Dg
