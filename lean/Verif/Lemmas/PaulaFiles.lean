/-
PAULA export: the content of the single files (C66).
-/
import Verif.Lemmas.Paula

namespace Dg
open Dict (find keys vals put find_put mem_find find_some_mem nodup_put mem_keys_put mem_keys_iff find_eq_none_iff)

theorem getOnsets_spec : ∀ (ts : List NodeId) (ss : List String) (o : Nat), ts.length = ss.length →
    (getOnsets o (ts.zip ss)).length = ss.length ∧
    ∀ (i : Nat) (t : NodeId) (s : String), ts[i]? = some t → ss[i]? = some s → (getOnsets o (ts.zip ss))[i]? = some (t, o + DG.startOf ss i, s.toList.length)
  | [], [], o, _ => by simp [getOnsets]
  | t :: ts, s :: ss, o, h => by
    simp at h
    obtain ⟨h1, h2⟩ := getOnsets_spec ts ss (o + (s.toList.length + 1)) h
    refine ⟨by simp [getOnsets, h1], ?_⟩
    intro i t' s' ht hs
    cases i with
    | zero =>
      simp at ht hs
      subst ht; subst hs
      simp [getOnsets, DG.startOf_zero]
    | succ i =>
      simp only [List.getElem?_cons_succ] at ht hs
      have := h2 i t' s' ht hs
      simp only [List.zip_cons_cons, getOnsets, List.getElem?_cons_succ]
      rw [this, DG.startOf_cons]
      simp only [Nat.add_assoc]

namespace DG

/-- what the exporter needs to know about the graph after the renaming -/
structure PaulaReady (g : DG) (strs : List String) : Prop where
  inv : Inv g
  layered : NodesLayeredNE g
  typed : g.Typed
  strings : g.StringValued
  ids : ∀ n, g.HasNode n → ∃ s, n = .str s ∧ ':' ∉ s.toList
  tokens : g.HasTokens strs

theorem getTokens_ok {g : DG} {f : NodeId → Except PyErr (Option (NodeId × Val))} (hf : ∀ t v, g.getToken t = .ok v → f t = .ok (some (t, v))) :
    ∀ {ts : List NodeId} {ss : List String}, List.Forall₂ g.TokenStr ts ss → Gen.collect f ts = (ts.zip (ss.map (fun s => Val.atom (.str s))), none) := by
  intro ts ss h
  induction h with
  | nil => rfl
  | cons h1 _ ih =>
    have := hf _ _ (getAttr_ok.2 h1)
    rw [Gen.collect, this]
    simp only
    rw [ih]; rfl

theorem text_str (s : String) : NodeId.text (.str s) = s := by simp [NodeId.text, NodeId.chars]

variable {g : DG} {strs : List String}

theorem paulaText_ok (h : PaulaReady g strs) : g.paulaText = .ok (.text (pyJoin " " strs)) := by
  have : g.tokenStrings g.tokens = .ok strs := tokenStrings_ok.2 h.tokens
  simp only [paulaText, getText, tokens2text, this, bind, Except.bind]

theorem token_node (h : PaulaReady g strs) {t : NodeId} (ht : t ∈ g.tokens) : ∃ a, g.nodeAttrs t = some a := by
  obtain ⟨s, _, hs⟩ := forall₂_mem_left h.tokens ht
  exact nodeAttr_hasNode hs

theorem paulaTok_ok (h : PaulaReady g strs) (corpus name : String) :
    ∃ items, g.paulaTok corpus name = .ok (.marks "tok" (docFile corpus name ".text.xml") items) ∧
    items.length = strs.length ∧ g.tokens.length = strs.length ∧
    ∀ (i : Nat) (t : NodeId) (s : String), g.tokens[i]? = some t → strs[i]? = some s → ∃ onset,
      items[i]? = some (some t.text, "#xpointer(string-range(//body,''," ++ (String.ofList (decimal (onset + 1)) ++ ("," ++ (String.ofList (decimal s.toList.length) ++ "))")))) ∧
      ((pyJoin " " strs).toList.drop onset).take s.toList.length = s.toList ∧ onset = startOf strs i := by
  have hlen : g.tokens.length = strs.length := h.tokens.length_eq
  have h1 : genAll g.getTokens = .ok (g.tokens.zip (strs.map (fun s => Val.atom (.str s)))) := by
    unfold genAll getTokens
    rw [getTokens_ok (fun t v hv => by rw [hv]) h.tokens]
  have h2 : ∀ (ts : List NodeId) (ss : List String), mapE (fun (x : NodeId × Val) => (do let s ← asString x.2; .ok (x.1, s) : Except PyErr (NodeId × String)))
      (ts.zip (ss.map (fun s => Val.atom (.str s)))) = .ok (ts.zip ss) := by
    intro ts
    induction ts with
    | nil => intro ss; rfl
    | cons t ts ih =>
      intro ss
      cases ss with
      | nil => rfl
      | cons s ss => simp only [List.map_cons, List.zip_cons_cons, mapE, asString, bind, Except.bind] at ih ⊢; rw [ih]
  obtain ⟨hl, hget⟩ := getOnsets_spec g.tokens strs 1 hlen
  have hids : ∀ x ∈ getOnsets 1 (g.tokens.zip strs), lxmlId x.1 = .ok x.1.text := by
    intro x hx
    obtain ⟨i, hi⟩ := List.mem_iff_getElem?.1 hx
    have hlt : i < g.tokens.length := by
      have := (List.getElem?_eq_some_iff.1 hi).1
      omega
    have := hget i _ _ (List.getElem?_eq_getElem hlt) (List.getElem?_eq_getElem (hlen ▸ hlt))
    rw [hi] at this
    injection this with this
    rw [this]
    obtain ⟨a, ha⟩ := token_node h (List.getElem_mem hlt)
    obtain ⟨s, hs, _⟩ := h.ids _ ((hasNode_some g _).2 ⟨a, ha⟩)
    rw [hs, text_str]; rfl
  let f : NodeId × Nat × Nat → Option String × String := fun x =>
    (some x.1.text, "#xpointer(string-range(//body,''," ++ (String.ofList (decimal x.2.1) ++ ("," ++ (String.ofList (decimal x.2.2) ++ "))"))))
  have h3 : mapE (fun (x : NodeId × Nat × Nat) => (do
      let i ← lxmlId x.1
      .ok (some i, "#xpointer(string-range(//body,''," ++ (String.ofList (decimal x.2.1) ++ ("," ++ (String.ofList (decimal x.2.2) ++ "))")))) : Except PyErr (Option String × String)))
      (getOnsets 1 (g.tokens.zip strs)) = .ok ((getOnsets 1 (g.tokens.zip strs)).map f) := by
    generalize getOnsets 1 (g.tokens.zip strs) = l at hids
    clear * - hids
    induction l with
    | nil => rfl
    | cons x l ih =>
      simp only [mapE]
      rw [hids x (by simp), ih (fun y hy => hids y (List.mem_cons_of_mem _ hy))]
      rfl
  refine ⟨(getOnsets 1 (g.tokens.zip strs)).map f, ?_, by simp [hl], hlen, ?_⟩
  · simp only [paulaTok, h1, except_bind_ok, h2]
    rw [h3, except_bind_ok]
    simp only [paulaDocId, docFile, String.append_assoc]
    rfl
  · intro i t s ht hs
    refine ⟨startOf strs i, ?_, ?_, rfl⟩
    · rw [List.getElem?_map, hget i t s ht hs]
      simp only [Option.map_some, f, Nat.add_comm 1]
    · have hlt := (List.getElem?_eq_some_iff.1 hs).1
      have hd : strs.getD i "" = s := by rw [List.getD_eq_getElem?_getD, hs]; rfl
      have := startOf_le_join strs i hlt
      rw [hd] at this
      simpa [pyJoin] using this

theorem node_keys (hi : Inv g) {n : NodeId} {a : Attrs} (h : g.nodeAttrs n = some a) : (keys a).Nodup := hi.attrs.node n a h

theorem paulaTokAnno_ok (h : PaulaReady g strs) (corpus name layer : String) :
    ∃ items, g.paulaTokAnno corpus name layer = .ok (.feats (docFile corpus name ".tok.xml") items) ∧
    List.Forall₂ (fun t x => x.1 = "#" ++ t.text ∧ ∃ a, g.nodeAttrs t = some a ∧
      FeatsOf (fun k => k ∉ ["layers", "label", "metadata", "tokens", "tiger:id", "tiger:art_id", "tiger:orig_id", "tiger:token", "tiger:word"] ∧ layer.toList <+: k.toList) a x.2) g.tokens items := by
  have hx : ∀ t ∈ g.tokens, ∃ x : String × List (String × String), (do
      let a ← g.paulaNode t
      let fs ← paulaFeats (fun k => decide (k ∉ ignoredTokenAttribs ∧ layer.toList <+: k.toList)) a
      .ok ("#" ++ t.text, fs) : Except PyErr (String × List (String × String))) = .ok x ∧ (x.1 = "#" ++ t.text ∧ ∃ a, g.nodeAttrs t = some a ∧
      FeatsOf (fun k => k ∉ ["layers", "label", "metadata", "tokens", "tiger:id", "tiger:art_id", "tiger:orig_id", "tiger:token", "tiger:word"] ∧ layer.toList <+: k.toList) a x.2) := by
    intro t ht
    obtain ⟨a, ha⟩ := token_node h ht
    obtain ⟨fs, h1, h2⟩ := paulaFeats_ok (wanted := fun k => decide (k ∉ ignoredTokenAttribs ∧ layer.toList <+: k.toList)) (node_keys h.inv ha) (by
      intro k v hk hw
      simp only [decide_eq_true_eq] at hw
      exact h.strings.1 t a k v ha hk (fun hc => hw.1 (List.mem_append_left _ hc)))
    refine ⟨("#" ++ t.text, fs), ?_, rfl, a, ha, ?_⟩
    · have ha' : find g.nodes t = some a := ha
      simp only [paulaNode, ha', except_bind_ok, h1]
    · simpa [ignoredTokenAttribs, ignoredNodeAttribs] using h2
  obtain ⟨items, hit⟩ := forall₂_of_exists hx
  refine ⟨items, ?_, hit.imp (fun _ _ h => h.2)⟩
  unfold paulaTokAnno
  rw [mapE_of_forall (hit.imp (fun _ _ h => h.1))]
  simp only [except_bind_ok, paulaDocId, docFile, String.append_assoc]
  rfl

theorem paulaSpanHref_ok (snp : Bool) (ts : List NodeId) (hne : ts ≠ []) : ∃ x, paulaSpanHref snp ts = .ok x ∧
    ((snp = true ∧ x = pyJoin " " (ts.map (fun t => "#" ++ t.text))) ∨
       (snp = false ∧ ∃ a b : NodeId, ts.head? = some a ∧ ts.getLast? = some b ∧ x = "#xpointer(id(" ++ (a.text ++ (")/range-to(id(" ++ (b.text ++ ")))"))))) := by
  cases snp with
  | true => exact ⟨_, by simp [paulaSpanHref], Or.inl ⟨rfl, rfl⟩⟩
  | false =>
    cases ts with
    | nil => exact absurd rfl hne
    | cons t ts =>
      have hl : (t :: ts).getLast? = some ((t :: ts).getLast hne) := List.getLast?_eq_getLast_of_ne_nil hne
      refine ⟨_, by unfold paulaSpanHref; rw [hl]; rfl, Or.inr ⟨rfl, t, _, rfl, hl, rfl⟩⟩

theorem paulaSeg_ok (h : PaulaReady g strs) (snp : Bool) (corpus name layer : String) (hp : plain layer = true) :
    ∃ d items, g.paulaSeg snp corpus name layer = .ok (.marks layer (docFile corpus name ".tok.xml") items) ∧
    Grouped (g.TypedEdge layer "spans") d ∧
    List.Forall₂ (fun p x => x.1 = none ∧ ∃ ts : List NodeId, ts.Perm (p.2.map Prod.fst) ∧ ts.Pairwise (fun a b => naturalLe a b = true) ∧
      ((snp = true ∧ x.2 = pyJoin " " (ts.map (fun t => "#" ++ t.text))) ∨
       (snp = false ∧ ∃ a b : NodeId, ts.head? = some a ∧ ts.getLast? = some b ∧ x.2 = "#xpointer(id(" ++ (a.text ++ (")/range-to(id(" ++ (b.text ++ ")))")))))) d items := by
  obtain ⟨es, h1, h2⟩ := paulaEdges_ok h.inv h.typed layer "spans" hp (by decide)
  have hg := grouped_fold h2
  have hx : ∀ p ∈ es.foldl groupEdge [], ∃ x : Option String × String, (do
      let href ← paulaSpanHref snp (naturalSorted (keys p.2))
      .ok (none, href) : Except PyErr (Option String × String)) = .ok x ∧ (x.1 = none ∧ ∃ ts : List NodeId, ts.Perm (p.2.map Prod.fst) ∧ ts.Pairwise (fun a b => naturalLe a b = true) ∧
      ((snp = true ∧ x.2 = pyJoin " " (ts.map (fun t => "#" ++ t.text))) ∨
       (snp = false ∧ ∃ a b : NodeId, ts.head? = some a ∧ ts.getLast? = some b ∧ x.2 = "#xpointer(id(" ++ (a.text ++ (")/range-to(id(" ++ (b.text ++ ")))")))))) := by
    intro p hp
    obtain ⟨s1, s2, _⟩ := c20_sorted (keys p.2)
    have hne : naturalSorted (keys p.2) ≠ [] := by
      intro hc
      rw [hc] at s1
      have := s1.symm.eq_nil
      exact (hg.targets p hp).1 (List.map_eq_nil_iff.1 this)
    obtain ⟨x, hx1, hx2⟩ := paulaSpanHref_ok snp _ hne
    exact ⟨(none, x), by rw [hx1]; rfl, rfl, _, s1, s2, hx2⟩
  obtain ⟨items, hit⟩ := forall₂_of_exists hx
  refine ⟨es.foldl groupEdge [], items, ?_, hg, hit.imp (fun _ _ h => h.2)⟩
  have h1' : g.paulaEdges layer spanningRelation = .ok es := h1
  unfold paulaSeg
  rw [h1', except_bind_ok, mapE_of_forall (hit.imp (fun _ _ h => h.1))]
  simp only [except_bind_ok, paulaDocId, docFile, String.append_assoc]
  rfl

theorem paulaTokenEdges_ok : ∀ (es : List (NodeId × NodeId × Attrs)), (∀ e ∈ es, g.HasNode e.2.1) →
    ∃ r, g.paulaTokenEdges es = .ok r ∧ ∀ e, e ∈ r ↔ e ∈ es ∧ g.IsToken e.2.1
  | [], _ => ⟨[], rfl, by simp⟩
  | e :: es, h => by
    obtain ⟨r, h1, h2⟩ := paulaTokenEdges_ok es (fun x hx => h x (List.mem_cons_of_mem _ hx))
    obtain ⟨b, hb, hbt⟩ := istoken_iff (h e (by simp))
    refine ⟨if b then e :: r else r, ?_, ?_⟩
    · simp only [paulaTokenEdges, hb, h1, except_bind_ok]
    · intro x
      cases b with
      | true =>
        simp only [if_true, List.mem_cons, h2]
        constructor
        · rintro (rfl | hx)
          · exact ⟨Or.inl rfl, hbt.1 rfl⟩
          · exact ⟨Or.inr hx.1, hx.2⟩
        · rintro ⟨rfl | hx, ht⟩
          · exact Or.inl rfl
          · exact Or.inr ⟨hx, ht⟩
      | false =>
        simp only [Bool.false_eq_true, if_false, List.mem_cons, h2]
        constructor
        · rintro hx; exact ⟨Or.inr hx.1, hx.2⟩
        · rintro ⟨rfl | hx, ht⟩
          · exact absurd (hbt.2 ht) (by simp)
          · exact ⟨hx, ht⟩

theorem typedEdge_ends (hi : Inv g) {layer typ : String} {u v : NodeId} {a : Attrs} (h : g.TypedEdge layer typ u v a) : g.HasNode u ∧ g.HasNode v := by
  obtain ⟨k, ha, _, _⟩ := h
  exact edge_ends hi.wf ha

theorem noRoot (h : PaulaReady g strs) {layer typ : String} {es : List (NodeId × NodeId × Attrs)} (h2 : ∀ u v a, g.TypedEdge layer typ u v a ↔ (u, v, a) ∈ es) :
    es.filter (fun e => decide (e.1 ≠ .str (layer ++ ":root_node"))) = es := by
  rw [List.filter_eq_self]
  rintro ⟨u, v, a⟩ he
  obtain ⟨hu, _⟩ := typedEdge_ends h.inv ((h2 u v a).2 he)
  obtain ⟨s, hs, hc⟩ := h.ids u hu
  simp only [decide_eq_true_eq]
  rintro heq
  rw [hs] at heq
  injection heq with heq
  exact hc (by rw [heq]; simp)

theorem paulaHierarchy_ok (h : PaulaReady g strs) (corpus name layer : String) (hp : plain layer = true) :
    ∃ d items, g.paulaHierarchy corpus name layer = .ok (.structs layer items) ∧
    Grouped (g.InHierarchy layer) d ∧
    List.Forall₂ (fun p x => x.1 = p.1.text ∧ List.Forall₂ (fun q r => r.1 = relName p.1 q.1 ∧ find q.2 "edge_type" = some (.atom (.str r.2.1)) ∧
      ((g.IsToken q.1 ∧ r.2.2 = docFile corpus name ".tok.xml#" ++ q.1.text) ∨ (¬ g.IsToken q.1 ∧ r.2.2 = "#" ++ q.1.text))) p.2 x.2) d items := by
  obtain ⟨es, h1, h2⟩ := paulaEdges_ok h.inv h.typed layer "dominates" hp (by decide)
  obtain ⟨es', h1', h2'⟩ := paulaEdges_ok h.inv h.typed layer "spans" hp (by decide)
  obtain ⟨r, h3, h4⟩ := paulaTokenEdges_ok es' (by
    rintro ⟨u, v, a⟩ he
    exact (typedEdge_ends h.inv ((h2' u v a).2 he)).2)
  have hE : ∀ u v a, g.InHierarchy layer u v a ↔ (u, v, a) ∈ es ++ r := by
    intro u v a
    rw [List.mem_append, h4, ← h2, ← h2']
    exact Iff.rfl
  have hg := grouped_fold hE
  have hrel : ∀ u q, g.InHierarchy layer u q.1 q.2 → ∃ r, g.paulaRel corpus name u q = .ok r ∧ (r.1 = relName u q.1 ∧ find q.2 "edge_type" = some (.atom (.str r.2.1)) ∧
      ((g.IsToken q.1 ∧ r.2.2 = docFile corpus name ".tok.xml#" ++ q.1.text) ∨ (¬ g.IsToken q.1 ∧ r.2.2 = "#" ++ q.1.text))) := by
    intro u q hq
    have hty : ∃ typ, find q.2 "edge_type" = some (.atom (.str typ)) ∧ g.HasNode q.1 := by
      rcases hq with hq | ⟨hq, _⟩
      · exact ⟨_, hq.choose_spec.2.2, (typedEdge_ends h.inv hq).2⟩
      · exact ⟨_, hq.choose_spec.2.2, (typedEdge_ends h.inv hq).2⟩
    obtain ⟨typ, ht, hv⟩ := hty
    obtain ⟨b, hb, hbt⟩ := istoken_iff hv
    refine ⟨(paulaRelId u q.1, typ, if b then paulaDocId corpus name "tok" ++ (".xml#" ++ q.1.text) else "#" ++ q.1.text), ?_, rfl, ht, ?_⟩
    · simp only [paulaRel, hb, except_bind_ok, ht, lxmlValue]
    · cases b with
      | true =>
        left
        refine ⟨hbt.1 rfl, ?_⟩
        simp only [if_true, paulaDocId, docFile, String.append_assoc]
        rw [show (".tok.xml#" : String) = "." ++ ("tok" ++ ".xml#") from rfl]
        simp only [String.append_assoc]
      | false => exact Or.inr ⟨fun hc => absurd (hbt.2 hc) (by simp), rfl⟩
  have hx : ∀ p ∈ (es ++ r).foldl groupEdge [], ∃ x : String × List (String × String × String), (do
      let rels ← mapE (g.paulaRel corpus name p.1) p.2
      .ok (p.1.text, rels) : Except PyErr (String × List (String × String × String))) = .ok x ∧
      (x.1 = p.1.text ∧ List.Forall₂ (fun q r => r.1 = relName p.1 q.1 ∧ find q.2 "edge_type" = some (.atom (.str r.2.1)) ∧
      ((g.IsToken q.1 ∧ r.2.2 = docFile corpus name ".tok.xml#" ++ q.1.text) ∨ (¬ g.IsToken q.1 ∧ r.2.2 = "#" ++ q.1.text))) p.2 x.2) := by
    intro p hp
    obtain ⟨rels, hrels⟩ := forall₂_of_exists (xs := p.2) (fun q hq => hrel p.1 q (hg.edges p hp q hq))
    refine ⟨(p.1.text, rels), ?_, rfl, hrels.imp (fun _ _ h => h.2)⟩
    rw [mapE_of_forall (hrels.imp (fun _ _ h => h.1))]; rfl
  obtain ⟨items, hit⟩ := forall₂_of_exists hx
  refine ⟨(es ++ r).foldl groupEdge [], items, ?_, hg, hit.imp (fun _ _ h => h.2)⟩
  have e1 : g.paulaEdges layer dominanceRelation = .ok es := h1
  have e2 : g.paulaEdges layer spanningRelation = .ok es' := h1'
  simp only [paulaHierarchy, e1, e2, except_bind_ok, h3]
  rw [noRoot h h2, mapE_of_forall (hit.imp (fun _ _ h => h.1)), except_bind_ok]

theorem paulaNodeFeats_ok (h : PaulaReady g strs) : ∀ (ns : List NodeId), ns.Nodup → (∀ n ∈ ns, g.HasNode n) →
    ∃ ns' items, g.paulaNodeFeats ns = .ok items ∧ ns'.Nodup ∧ (∀ n, n ∈ ns' ↔ n ∈ ns ∧ ¬ g.IsToken n) ∧
    List.Forall₂ (fun n x => x.1 = "#" ++ n.text ∧ ∃ a, g.nodeAttrs n = some a ∧
      FeatsOf (fun k => k ∉ ["layers", "label", "metadata", "tokens", "tiger:id", "tiger:art_id", "tiger:orig_id"]) a x.2) ns' items
  | [], _, _ => ⟨[], [], rfl, by simp, by simp, .nil⟩
  | n :: ns, nd, hn => by
    rw [List.nodup_cons] at nd
    obtain ⟨ns', items, h1, h2, h3, h4⟩ := paulaNodeFeats_ok h ns nd.2 (fun x hx => hn x (List.mem_cons_of_mem _ hx))
    obtain ⟨b, hb, hbt⟩ := istoken_iff (hn n (by simp))
    cases b with
    | true =>
      refine ⟨ns', items, by simp only [paulaNodeFeats, hb, except_bind_ok, if_true, h1], h2, ?_, h4⟩
      intro m
      rw [h3]
      constructor
      · rintro ⟨hm, ht⟩; exact ⟨List.mem_cons_of_mem _ hm, ht⟩
      · rintro ⟨hm, ht⟩
        rcases List.mem_cons.1 hm with rfl | hm
        · exact absurd (hbt.1 rfl) ht
        · exact ⟨hm, ht⟩
    | false =>
      have hnt : ¬ g.IsToken n := fun hc => absurd (hbt.2 hc) (by simp)
      obtain ⟨a, ha⟩ := (hasNode_some g n).1 (hn n (by simp))
      obtain ⟨fs, f1, f2⟩ := paulaFeats_ok (wanted := fun k => decide (k ∉ ignoredNodeAttribs)) (node_keys h.inv ha) (by
        intro k v hk hw
        simp only [decide_eq_true_eq] at hw
        exact h.strings.1 n a k v ha hk hw)
      refine ⟨n :: ns', ("#" ++ n.text, fs) :: items, ?_, ?_, ?_, .cons ⟨rfl, a, ha, ?_⟩ h4⟩
      · have ha' : find g.nodes n = some a := ha
        simp only [paulaNodeFeats, paulaNode, hb, except_bind_ok, Bool.false_eq_true, if_false, ha', f1, h1]
      · rw [List.nodup_cons]; exact ⟨fun hc => nd.1 ((h3 n).1 hc).1, h2⟩
      · intro m
        rw [List.mem_cons, List.mem_cons, h3]
        constructor
        · rintro (rfl | ⟨hm, ht⟩)
          · exact ⟨Or.inl rfl, hnt⟩
          · exact ⟨Or.inr hm, ht⟩
        · rintro ⟨rfl | hm, ht⟩
          · exact Or.inl rfl
          · exact Or.inr ⟨hm, ht⟩
      · simpa [ignoredNodeAttribs] using f2

theorem paulaBase (corpus name layer : String) : paulaLayerId corpus name layer .hierarchy ++ ".xml" = layerFile corpus name layer ("_" ++ (layer ++ ".xml")) := by
  simp only [paulaLayerId, layerFile, String.append_assoc]

theorem paulaStruct_ok (h : PaulaReady g strs) (corpus name layer : String) :
    ∃ ns items, g.paulaStruct corpus name layer = .ok (.feats (layerFile corpus name layer ("_" ++ (layer ++ ".xml"))) items) ∧
    ns.Nodup ∧ (∀ n, n ∈ ns ↔ g.NodeLayer n (.str layer) ∧ ¬ g.IsToken n) ∧
    List.Forall₂ (fun n x => x.1 = "#" ++ n.text ∧ ∃ a, g.nodeAttrs n = some a ∧
      FeatsOf (fun k => k ∉ ["layers", "label", "metadata", "tokens", "tiger:id", "tiger:art_id", "tiger:orig_id"]) a x.2) ns items := by
  obtain ⟨ids, h1, h2, _, h4⟩ := selectNodesByLayer_wf h.inv.wf (fun n a ha => by
    obtain ⟨xs, hx, hs, _⟩ := h.layered n a ha
    exact ⟨xs, hx, hs⟩) (.one layer)
  obtain ⟨ns', items, e1, e2, e3, e4⟩ := paulaNodeFeats_ok h ids h2 (fun n hn => ((h4 n).1 hn).1)
  refine ⟨ns', items, ?_, e2, ?_, e4⟩
  · simp only [paulaStruct, genAll, h1, except_bind_ok, e1, paulaBase]
  · intro n
    rw [e3, h4]
    constructor
    · rintro ⟨⟨_, hl⟩, ht⟩; exact ⟨hl, ht⟩
    · rintro ⟨hl, ht⟩; exact ⟨⟨(hasNode_some g n).2 ⟨hl.choose, hl.choose_spec.1⟩, hl⟩, ht⟩

theorem paulaEdgeFeats_ok (h : PaulaReady g strs) {layer typ : String} {d : Dict NodeId (Dict NodeId Attrs)} (hg : Grouped (g.TypedEdge layer typ) d) :
    ∃ items, paulaEdgeFeats d = .ok items ∧
    List.Forall₂ (fun e x => x.1 = "#" ++ relName e.1 e.2.1 ∧ FeatsOf (fun k => k ∉ ["layers", "label", "tiger:idref"]) e.2.2 x.2) (edgePairs d) items := by
  have hx : ∀ p ∈ d, ∃ xs, mapE (fun (y : NodeId × Attrs) => (do
      let fs ← paulaFeats (fun k => decide (k ∉ ignoredEdgeAttribs)) y.2
      .ok ("#" ++ paulaRelId p.1 y.1, fs) : Except PyErr (String × List (String × String)))) p.2 = .ok xs ∧
      List.Forall₂ (fun q x => x.1 = "#" ++ relName p.1 q.1 ∧ FeatsOf (fun k => k ∉ ["layers", "label", "tiger:idref"]) q.2 x.2) p.2 xs := by
    intro p hp
    have hq : ∀ q ∈ p.2, ∃ x : String × List (String × String), (do
        let fs ← paulaFeats (fun k => decide (k ∉ ignoredEdgeAttribs)) q.2
        .ok ("#" ++ paulaRelId p.1 q.1, fs) : Except PyErr (String × List (String × String))) = .ok x ∧
        (x.1 = "#" ++ relName p.1 q.1 ∧ FeatsOf (fun k => k ∉ ["layers", "label", "tiger:idref"]) q.2 x.2) := by
      intro q hq
      obtain ⟨k, ha, _, _⟩ := hg.edges p hp q hq
      obtain ⟨fs, f1, f2⟩ := paulaFeats_ok (wanted := fun k => decide (k ∉ ignoredEdgeAttribs)) (h.inv.attrs.edge _ _ _ _ ha) (by
        intro k' v hk hw
        simp only [decide_eq_true_eq] at hw
        exact h.strings.2 _ _ k _ k' v ha hk hw)
      refine ⟨("#" ++ paulaRelId p.1 q.1, fs), by rw [f1]; rfl, rfl, ?_⟩
      simpa [ignoredEdgeAttribs] using f2
    obtain ⟨xs, hxs⟩ := forall₂_of_exists hq
    exact ⟨xs, mapE_of_forall (hxs.imp (fun _ _ h => h.1)), hxs.imp (fun _ _ h => h.2)⟩
  obtain ⟨xss, hxss⟩ := forall₂_of_exists hx
  refine ⟨xss.flatten, by unfold paulaEdgeFeats; rw [mapE_of_forall (hxss.imp (fun _ _ h => h.1))]; rfl, ?_⟩
  have := hxss.imp (fun _ _ h => h.2)
  clear * - this
  generalize d = d' at this
  unfold edgePairs
  induction this with
  | nil => exact .nil
  | cons h1 _ ih =>
    rw [List.flatMap_cons, List.flatten_cons]
    refine List.rel_append ?_ ih
    rw [List.forall₂_map_left_iff]
    exact h1

theorem paulaRelAnno_ok (h : PaulaReady g strs) (corpus name layer : String) (hp : plain layer = true) :
    ∃ d items, g.paulaRelAnno corpus name layer = .ok (.feats (layerFile corpus name layer ("_" ++ (layer ++ ".xml"))) items) ∧
    Grouped (g.TypedEdge layer "dominates") d ∧
    List.Forall₂ (fun e x => x.1 = "#" ++ relName e.1 e.2.1 ∧ FeatsOf (fun k => k ∉ ["layers", "label", "tiger:idref"]) e.2.2 x.2) (edgePairs d) items := by
  obtain ⟨es, h1, h2⟩ := paulaEdges_ok h.inv h.typed layer "dominates" hp (by decide)
  have hg := grouped_fold h2
  obtain ⟨items, e1, e2⟩ := paulaEdgeFeats_ok h hg
  have h1' : g.paulaEdges layer dominanceRelation = .ok es := h1
  exact ⟨_, items, by simp only [paulaRelAnno, h1', except_bind_ok, noRoot h h2, e1, paulaBase], hg, e2⟩

theorem paulaPointingAnno_ok (h : PaulaReady g strs) (corpus name layer : String) (hp : plain layer = true) :
    ∃ d items, g.paulaPointingAnno corpus name layer = .ok (.feats (layerFile corpus name layer ("_" ++ (layer ++ "_pointing.xml"))) items) ∧
    Grouped (g.TypedEdge layer "points_to") d ∧
    List.Forall₂ (fun e x => x.1 = "#" ++ relName e.1 e.2.1 ∧ FeatsOf (fun k => k ∉ ["layers", "label", "tiger:idref"]) e.2.2 x.2) (edgePairs d) items := by
  obtain ⟨es, h1, h2⟩ := paulaEdges_ok h.inv h.typed layer "points_to" hp (by decide)
  have hg := grouped_fold h2
  obtain ⟨items, e1, e2⟩ := paulaEdgeFeats_ok h hg
  have h1' : g.paulaEdges layer pointingRelation = .ok es := h1
  refine ⟨_, items, ?_, hg, e2⟩
  simp only [paulaPointingAnno, h1', except_bind_ok, e1, paulaLayerId, layerFile, String.append_assoc]
  rfl

theorem paulaHref_ok {n : NodeId} (hn : g.HasNode n) (corpus name layer : String) : ∃ x, g.paulaHref corpus name layer n = .ok x ∧ g.NodeRef corpus name layer n x := by
  obtain ⟨b, hb, hbt⟩ := istoken_iff hn
  refine ⟨(if b then paulaDocId corpus name "tok" else paulaLayerId corpus name layer .hierarchy) ++ (".xml#" ++ n.text), by simp only [paulaHref, hb, except_bind_ok], ?_⟩
  cases b with
  | true =>
    left
    refine ⟨hbt.1 rfl, ?_⟩
    simp only [if_true, paulaDocId, docFile, String.append_assoc]
    rw [show (".tok.xml#" : String) = "." ++ ("tok" ++ ".xml#") from rfl]
    simp only [String.append_assoc]
  | false =>
    right
    refine ⟨fun hc => absurd (hbt.2 hc) (by simp), ?_⟩
    simp only [Bool.false_eq_true, if_false, paulaLayerId, layerFile, String.append_assoc]

theorem paulaPointing_ok (h : PaulaReady g strs) (corpus name layer : String) (hp : plain layer = true) :
    ∃ d items, g.paulaPointing corpus name layer = .ok (.rels items) ∧
    Grouped (g.TypedEdge layer "points_to") d ∧
    List.Forall₂ (fun e x => x.1 = relName e.1 e.2.1 ∧ g.NodeRef corpus name layer e.1 x.2.1 ∧ g.NodeRef corpus name layer e.2.1 x.2.2) (edgePairs d) items := by
  obtain ⟨es, h1, h2⟩ := paulaEdges_ok h.inv h.typed layer "points_to" hp (by decide)
  have hg := grouped_fold h2
  have hx : ∀ p ∈ es.foldl groupEdge [], ∃ xs, mapE (fun (y : NodeId × Attrs) => (do
      let s ← g.paulaHref corpus name layer p.1
      let t ← g.paulaHref corpus name layer y.1
      .ok (paulaRelId p.1 y.1, s, t) : Except PyErr (String × String × String))) p.2 = .ok xs ∧
      List.Forall₂ (fun q x => x.1 = relName p.1 q.1 ∧ g.NodeRef corpus name layer p.1 x.2.1 ∧ g.NodeRef corpus name layer q.1 x.2.2) p.2 xs := by
    intro p hp
    have hq : ∀ q ∈ p.2, ∃ x : String × String × String, (do
        let s ← g.paulaHref corpus name layer p.1
        let t ← g.paulaHref corpus name layer q.1
        .ok (paulaRelId p.1 q.1, s, t) : Except PyErr (String × String × String)) = .ok x ∧
        (x.1 = relName p.1 q.1 ∧ g.NodeRef corpus name layer p.1 x.2.1 ∧ g.NodeRef corpus name layer q.1 x.2.2) := by
      intro q hq
      obtain ⟨hu, hv⟩ := typedEdge_ends h.inv (hg.edges p hp q hq)
      obtain ⟨x, hx1, hx2⟩ := paulaHref_ok hu corpus name layer
      obtain ⟨y, hy1, hy2⟩ := paulaHref_ok hv corpus name layer
      exact ⟨(paulaRelId p.1 q.1, x, y), by rw [hx1, hy1]; rfl, rfl, hx2, hy2⟩
    obtain ⟨xs, hxs⟩ := forall₂_of_exists hq
    exact ⟨xs, mapE_of_forall (hxs.imp (fun _ _ h => h.1)), hxs.imp (fun _ _ h => h.2)⟩
  obtain ⟨xss, hxss⟩ := forall₂_of_exists hx
  have h1' : g.paulaEdges layer pointingRelation = .ok es := h1
  refine ⟨_, xss.flatten, by unfold paulaPointing; rw [h1', except_bind_ok, mapE_of_forall (hxss.imp (fun _ _ h => h.1))]; rfl, hg, ?_⟩
  have := hxss.imp (fun _ _ h => h.2)
  clear * - this
  generalize es.foldl groupEdge [] = d' at this
  unfold edgePairs
  induction this with
  | nil => exact .nil
  | cons h1 _ ih =>
    rw [List.flatMap_cons, List.flatten_cons]
    refine List.rel_append ?_ ih
    rw [List.forall₂_map_left_iff]
    exact h1

end DG
end Dg
