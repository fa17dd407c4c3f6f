import Verif.Lemmas.CopyView

/-! The document graph. -/

namespace Dg
open Dict
namespace DG

/-- content of the document graph after the given sentences -/
structure DocGraph (q : String) (ss : List TigerS) (g : DG) : Prop where
  inv : Inv g
  layered : NodesLayered False g
  ns : g.ns = q
  root : g.root = docRoot q
  tokens : g.tokens = ss.flatMap sentToks
  nodes : ∀ m, g.HasNode m ↔ m = docRoot q ∨ ∃ s ∈ ss, m ∈ s.declared ∨ m = topNode "tiger" s
  attr : ∀ s ∈ ss, ∀ m ∈ s.declared, ∀ k, k ≠ "layers" → g.nodeAttr m k = sentAttr "tiger" s m k
  other : ∀ m, m ∉ ss.flatMap TigerS.declared → ∀ k, k ≠ "layers" → g.nodeAttr m k = if m = docRoot q ∧ k = "metadata" then some (.dict []) else none
  layer : ∀ s ∈ ss, ∀ m ∈ s.declared, ∀ l, g.NodeLayer m l ↔ l ∈ (nodeLayers "tiger" s m).map Atom.str
  rootLayer : ∀ l, g.NodeLayer (docRoot q) l ↔ l = .str q
  vroot : (∃ s ∈ ss, s.root ∈ s.toks) → ∀ l, g.NodeLayer (.str (qual "tiger" "VROOT")) l ↔ l ∈ vrootLayers.map Atom.str
  edges : EdgesAre g (docEdges q ss)

theorem docRoot_ne_vroot (ns p : String) : docRoot ns ≠ .str (qual p "VROOT") := by
  intro h
  unfold docRoot qual at h
  have h := congrArg (fun x : List Char => x.reverse.head?) (congrArg String.toList (NodeId.str.inj h))
  simp [String.toList_append] at h

theorem topNode_cases {p : String} {s : TigerS} (hv : s.Valid) : (s.root ∈ s.toks ∧ topNode p s = .str (qual p "VROOT")) ∨ (s.root ∉ s.toks ∧ topNode p s = s.root ∧ topNode p s ∈ s.declared) := by
  unfold topNode
  by_cases h : s.root ∈ s.toks
  · exact .inl ⟨h, if_pos h⟩
  · rw [if_neg h]
    exact .inr ⟨h, rfl, hv.root⟩

theorem nodeAttr_none {g : DG} {m : NodeId} (h : ¬ g.HasNode m) (k : String) : g.nodeAttr m k = none := by
  rw [hasNode_some] at h
  unfold nodeAttr
  cases ha : g.nodeAttrs m with
  | none => rfl
  | some a => exact (h ⟨a, ha⟩).elim

theorem nodeLayer_none {g : DG} {m : NodeId} (h : ¬ g.HasNode m) (l : Atom) : ¬ g.NodeLayer m l := by
  rintro ⟨a, ha, _⟩
  exact h ((hasNode_some _ _).2 ⟨a, ha⟩)

theorem docGraph_init (name ns : String) : DocGraph ns [] { init "" ns none with name := name } := by
  have hi := inv_init "" ns none
  have hl := nodesLayered_init False "" ns none
  have hk : ∀ u v, (init "" ns none).kd? u v = none := by
    intro u v
    unfold kd? init newNode bare
    simp only [put, find]
    split <;> rfl
  have hr : docRoot ns = defaultRoot ns none := by simp [docRoot, defaultRoot, qual]
  refine ⟨⟨⟨hi.wf.nodesNodup, hi.wf.adjKeys, hi.wf.nbrsNodup, hi.wf.kdNodup, hi.wf.kdNonempty, hi.wf.target⟩, ⟨hi.attrs.node, hi.attrs.edge⟩, hi.edges⟩, hl, rfl, hr.symm, rfl, ?_, ?_, ?_, ?_, ?_, ?_, ?_⟩
  · intro m
    unfold HasNode init newNode bare
    rw [hr]
    simp [put, keys]
  · intro s hs; cases hs
  · intro m _ k hk2
    unfold nodeAttr nodeAttrs init newNode bare
    rw [hr]
    by_cases hm : m = defaultRoot ns none
    · subst hm
      simp only [put, if_true, find, true_and, Option.bind_some]
      rw [if_neg (Ne.symm hk2)]
      by_cases h : k = "metadata"
      · simp [h]
      · rw [if_neg (Ne.symm h), if_neg h]
    · simp only [put, if_true, find, if_neg (Ne.symm hm), hm, false_and, if_false, Option.bind_none]
  · intro s hs; cases hs
  · intro l
    unfold NodeLayer AttrsLayer nodeAttrs init newNode bare
    rw [hr]
    simp [put, find]
  · rintro ⟨s, hs, _⟩; cases hs
  · refine ⟨?_, ?_, ?_⟩
    · rintro u v a ⟨k, h⟩
      unfold edgeAttrs at h
      change ((init "" ns none).kd? u v).bind _ = _ at h
      rw [hk] at h
      cases h
    · intro e he; cases he
    · intro u v
      unfold edgeCount
      change (((init "" ns none).kd? u v).getD []).length = _
      rw [hk]
      rfl

theorem docGraph_step {ns : String} {pre : List TigerS} {s : TigerS} {g : DG} (hd : ValidDoc ns (pre ++ [s])) (h : DocGraph ns pre g) :
    ∃ g', g.tigerAddSentence s = .ok g' ∧ DocGraph ns (pre ++ [s]) g' ∧ g'.sentences = g.sentences ++ [topNode "tiger" s] ∧ g'.name = g.name := by
  have hv : s.Valid := hd.valid s (by simp)
  have hpre : ∀ x ∈ pre, x.Valid := fun x hx => hd.valid x (by simp [hx])
  have hvr : NodeId.str (qual "tiger" "VROOT") ∉ s.declared := fun e => hd.vroot (List.mem_flatMap.2 ⟨s, by simp, e⟩)
  have hrt : docRoot ns ∉ s.declared := fun e => hd.root (List.mem_flatMap.2 ⟨s, by simp, e⟩)
  have hnew : ∀ m ∈ s.declared, m ∉ pre.flatMap TigerS.declared := by
    intro m hm hp
    have := hd.unique
    rw [List.flatMap_append, List.flatMap_singleton, List.nodup_append] at this
    exact this.2.2 m hp m hm rfl
  obtain ⟨sg, e1, hs⟩ := tigerSentence_graph (p := "tiger") hv hvr
  have hi1 : Inv { g with tokens := g.tokens ++ sg.tokens } := inv_tokens h.inv _
  have hl1 : NodesLayered False { g with tokens := g.tokens ++ sg.tokens } := h.layered
  obtain ⟨g2, g3, e2, e3, b3⟩ := copy_built (o := sg) hi1 hl1 hs.inv hs.layered
  obtain ⟨g4, e4, b4⟩ := execs_built (edgeCalls [sentenceEdge ns s]) b3.inv b3.layered (edgeCalls_ok (by
    intro e he
    obtain rfl := List.mem_singleton.1 he
    exact ⟨by simp [sentenceEdge], by simp [sentenceEdge, keys]⟩) _)
  have b := built_append hi1 hl1 b3 b4
  have hg4 : g3.addEdge g3.root sg.root (.set [.str g3.ns, .str (qual g3.ns "sentence")]) none .none [("edge_type", .atom (.str "dominates"))] = .ok g4 := by
    rw [← e4, show g3.root = docRoot ns from b3.root.trans h.root, show g3.ns = ns from b3.ns.trans h.ns, hs.root]
    exact (execs_one g3 (.edge (docRoot ns) (topNode "tiger" s) [ns, qual ns "sentence"] [("edge_type", strV "dominates")])).symm
  have V := copyView hs.inv hs.layered (es' := [sentenceEdge ns s]) (by
    intro e he
    obtain rfl := List.mem_singleton.1 he
    exact ⟨.inl ((h.nodes _).2 (.inl rfl)), .inr ((hs.nodes _).2 (.inr rfl))⟩) b
  have hVnodes : ∀ m, g4.HasNode m ↔ g.HasNode m ∨ sg.HasNode m := V.nodes
  have hVattr : ∀ m k, k ≠ "layers" → g4.nodeAttr m k = (sg.nodeAttr m k).or (g.nodeAttr m k) := V.attr
  have hVlayer : ∀ m l, g4.NodeLayer m l ↔ g.NodeLayer m l ∨ sg.NodeLayer m l := V.layer
  have hVedges : EdgesAre g4 (docEdges ns pre ++ (sentEdges "tiger" s ++ [sentenceEdge ns s])) := V.edges _ _ ⟨h.edges.sound, h.edges.complete, h.edges.count⟩ hs.edges
  refine ⟨{ g4 with sentences := g4.sentences ++ [sg.root] }, ?_, ?_, ?_, ?_⟩
  · unfold tigerAddSentence
    rw [e1]
    show (batch (DG.addNodesFrom { g with tokens := g.tokens ++ sg.tokens } [] _) >>= _) = _
    rw [e2]
    show (batch (g2.addEdgesFrom _ .none []) >>= _) = _
    rw [e3]
    show (g3.addEdge g3.root sg.root (.set [.str g3.ns, .str (qual g3.ns "sentence")]) none .none [("edge_type", .atom (.str "dominates"))] >>= _) = _
    rw [hg4]
    rfl
  · -- nodes that are declared in the new sentence are new
    have hng : ∀ m ∈ s.declared, ¬ g.HasNode m := by
      intro m hm hg
      rcases (h.nodes m).1 hg with rfl | ⟨x, hx, hm2 | hm2⟩
      · exact hrt hm
      · exact hnew m hm (List.mem_flatMap.2 ⟨x, hx, hm2⟩)
      · rcases topNode_cases (p := "tiger") (hpre x hx) with ⟨_, ht⟩ | ⟨_, _, ht⟩
        · exact hvr (by rw [← ht, ← hm2]; exact hm)
        · exact hnew m hm (List.mem_flatMap.2 ⟨x, hx, hm2 ▸ ht⟩)
    have hns : ∀ x ∈ pre, ∀ m ∈ x.declared, ¬ sg.HasNode m := by
      intro x hx m hm hg
      rcases (hs.nodes m).1 hg with h2 | h2
      · exact hnew m h2 (List.mem_flatMap.2 ⟨x, hx, hm⟩)
      · rcases topNode_cases (p := "tiger") hv with ⟨_, ht⟩ | ⟨_, _, ht⟩
        · exact hd.vroot (List.mem_flatMap.2 ⟨x, by simp [hx], by rw [← ht, ← h2]; exact hm⟩)
        · exact hnew m (h2 ▸ ht) (List.mem_flatMap.2 ⟨x, hx, hm⟩)
    have hroot : ¬ sg.HasNode (docRoot ns) := by
      intro hg
      rcases (hs.nodes _).1 hg with h2 | h2
      · exact hrt h2
      · rcases topNode_cases (p := "tiger") hv with ⟨_, ht⟩ | ⟨_, _, ht⟩
        · exact docRoot_ne_vroot ns "tiger" (h2.trans ht)
        · exact hrt (h2 ▸ ht)
    refine ⟨inv_sentences b.inv _, b.layered, b.ns.trans h.ns, b.root.trans h.root, ?_, ?_, ?_, ?_, ?_, ?_, ?_, ?_⟩
    · show g4.tokens = _
      rw [b.tokens]
      show g.tokens ++ sg.tokens ++ _ = _
      have : (copyNodes sg ++ copyEdges sg ++ edgeCalls [sentenceEdge ns s]).flatMap Instr.newTokens = [] := by
        rw [List.flatMap_eq_nil_iff]
        intro i hi
        rcases List.mem_append.1 hi with hi | hi
        · rcases List.mem_append.1 hi with hi | hi
          · obtain ⟨p, _, rfl⟩ := List.mem_map.1 hi; rfl
          · obtain ⟨p, _, rfl⟩ := List.mem_map.1 hi; rfl
        · obtain ⟨p, _, rfl⟩ := List.mem_map.1 hi; rfl
      rw [this, List.append_nil, h.tokens, hs.tokens, List.flatMap_append, List.flatMap_singleton]
    · intro m
      refine (hVnodes m).trans ?_
      rw [h.nodes, hs.nodes]
      simp only [List.mem_append, List.mem_singleton]
      constructor
      · rintro ((h1 | ⟨x, hx, h1⟩) | h1)
        · exact .inl h1
        · exact .inr ⟨x, .inl hx, h1⟩
        · exact .inr ⟨s, .inr rfl, h1⟩
      · rintro (h1 | ⟨x, hx | rfl, h1⟩)
        · exact .inl (.inl h1)
        · exact .inl (.inr ⟨x, hx, h1⟩)
        · exact .inr h1
    · intro x hx m hm k hk
      refine (hVattr m k hk).trans ?_
      rcases List.mem_append.1 hx with hx | hx
      · rw [nodeAttr_none (hns x hx m hm), h.attr x hx m hm k hk]
        rfl
      · obtain rfl := List.mem_singleton.1 hx
        rw [hs.attr m k hk, nodeAttr_none (hng m hm)]
        cases sentAttr "tiger" x m k <;> rfl
    · intro m hm k hk
      rw [List.flatMap_append, List.flatMap_singleton, List.mem_append, not_or] at hm
      refine (hVattr m k hk).trans ?_
      rw [hs.attr m k hk, sentAttr_other hv hm.2, h.other m hm.1 k hk]
      rfl
    · intro x hx m hm l
      refine (hVlayer m l).trans ?_
      rcases List.mem_append.1 hx with hx | hx
      · rw [h.layer x hx m hm l]
        have := nodeLayer_none (hns x hx m hm) l
        tauto
      · obtain rfl := List.mem_singleton.1 hx
        rw [hs.layer m hm l]
        have := nodeLayer_none (hng m hm) l
        tauto
    · intro l
      refine (hVlayer _ l).trans ?_
      rw [h.rootLayer l]
      have := nodeLayer_none hroot l
      tauto
    · rintro ⟨x, hx, hxr⟩ l
      refine (hVlayer _ l).trans ?_
      by_cases hA : ∃ y ∈ pre, y.root ∈ y.toks
      · rw [h.vroot hA l]
        by_cases hB : s.root ∈ s.toks
        · rw [hs.vroot hB l, or_self]
        · have : ¬ sg.HasNode (.str (qual "tiger" "VROOT")) := by
            intro hg
            rcases (hs.nodes _).1 hg with h2 | h2
            · exact hvr h2
            · rcases topNode_cases (p := "tiger") hv with ⟨h3, _⟩ | ⟨_, _, ht⟩
              · exact hB h3
              · exact hvr (h2 ▸ ht)
          have := nodeLayer_none this l
          tauto
      · rcases List.mem_append.1 hx with hx | hx
        · exact (hA ⟨x, hx, hxr⟩).elim
        · obtain rfl := List.mem_singleton.1 hx
          rw [hs.vroot hxr l]
          have : ¬ g.HasNode (.str (qual "tiger" "VROOT")) := by
            intro hg
            rcases (h.nodes _).1 hg with h2 | ⟨y, hy, h2 | h2⟩
            · exact docRoot_ne_vroot ns "tiger" h2.symm
            · exact hd.vroot (List.mem_flatMap.2 ⟨y, by simp [hy], h2⟩)
            · rcases topNode_cases (p := "tiger") (hpre y hy) with ⟨h3, _⟩ | ⟨_, _, ht⟩
              · exact hA ⟨y, hy, h3⟩
              · exact hd.vroot (List.mem_flatMap.2 ⟨y, by simp [hy], h2 ▸ ht⟩)
          have := nodeLayer_none this l
          tauto
    · unfold docEdges
      rw [List.flatMap_append, List.flatMap_singleton]
      exact ⟨hVedges.sound, hVedges.complete, hVedges.count⟩
  · show g4.sentences ++ [sg.root] = _
    rw [b.sentences, hs.root]
    show g.sentences ++ _ ++ _ = _
    have : (copyNodes sg ++ copyEdges sg ++ edgeCalls [sentenceEdge ns s]).flatMap Instr.newSentences = [] := by
      rw [List.flatMap_eq_nil_iff]
      intro i hi
      rcases List.mem_append.1 hi with hi | hi
      · rcases List.mem_append.1 hi with hi | hi
        · obtain ⟨p, _, rfl⟩ := List.mem_map.1 hi; rfl
        · obtain ⟨p, _, rfl⟩ := List.mem_map.1 hi; rfl
      · obtain ⟨p, _, rfl⟩ := List.mem_map.1 hi; rfl
    rw [this, List.append_nil]
  · exact b.name

theorem validDoc_left {ns : String} {a b : List TigerS} (h : ValidDoc ns (a ++ b)) : ValidDoc ns a := by
  refine ⟨fun s hs => h.valid s (List.mem_append_left _ hs), ?_, ?_, ?_⟩
  · have := h.unique
    rw [List.flatMap_append, List.nodup_append] at this
    exact this.1
  · intro e; exact h.root (by rw [List.flatMap_append]; exact List.mem_append_left _ e)
  · intro e; exact h.vroot (by rw [List.flatMap_append]; exact List.mem_append_left _ e)

theorem docGraph_all {name ns : String} : ∀ (ss pre : List TigerS) {g : DG}, ValidDoc ns (pre ++ ss) → DocGraph ns pre g → g.sentences = pre.map (topNode "tiger") → g.name = name →
    ∃ g', ss.foldlM tigerAddSentence g = .ok g' ∧ DocGraph ns (pre ++ ss) g' ∧ g'.sentences = (pre ++ ss).map (topNode "tiger") ∧ g'.name = name := by
  intro ss
  induction ss with
  | nil => intro pre g _ h h2 h3; exact ⟨g, rfl, by rw [List.append_nil]; exact h, by rw [List.append_nil]; exact h2, h3⟩
  | cons s ss ih =>
    intro pre g hd h h2 h3
    have hd1 : ValidDoc ns ((pre ++ [s]) ++ ss) := by simpa using hd
    obtain ⟨g1, e1, d1, s1, n1⟩ := docGraph_step (validDoc_left hd1) h
    obtain ⟨g2, e2, d2, s2, n2⟩ := ih (pre ++ [s]) hd1 d1 (by rw [s1, h2]; simp) (n1.trans h3)
    refine ⟨g2, ?_, by simpa using d2, by simpa using s2, n2⟩
    rw [List.foldlM_cons, e1]
    exact e2

/-- reading a valid file -/
theorem tigerRead_graph {name ns : String} {ss : List TigerS} (hd : ValidDoc ns ss) : ∃ g, tigerRead name ns ss = .ok g ∧ DocGraph ns ss g ∧ g.sentences = naturalSorted (ss.map (topNode "tiger")) ∧ g.name = name := by
  obtain ⟨g, e, d, s, n⟩ := docGraph_all (name := name) ss [] (g := { init "" ns none with name := name }) hd (docGraph_init name ns) rfl rfl
  refine ⟨{ g with sentences := naturalSorted g.sentences }, ?_, ?_, ?_, n⟩
  · unfold tigerRead
    rw [e]
    rfl
  · exact ⟨inv_sentences d.inv _, d.layered, d.ns, d.root, d.tokens, d.nodes, d.attr, d.other, d.layer, d.rootLayer, d.vroot, ⟨d.edges.sound, d.edges.complete, d.edges.count⟩⟩
  · show naturalSorted g.sentences = _
    rw [s]
    rfl

end DG
end Dg
