import Verif.Lemmas.Tiger

/-! The graph of one TIGER sentence, before unconnected nodes are attached. -/

namespace Dg
open Dict
namespace DG

theorem Instr.Ok.mono {p q : NodeId → Prop} (h : ∀ m, p m → q m) {i : Instr} (hi : i.Ok p) : i.Ok q := by
  cases i with
  | attr n k v => exact ⟨h n hi.1, hi.2⟩
  | node => exact hi
  | edge => exact hi
  | token => exact hi
  | sentence => exact hi

theorem CInstr.Ok.mono {a b : List NodeId} (h : ∀ m ∈ a, m ∈ b) {c : CInstr} (hc : c.Ok a) : c.Ok b := by
  cases c with
  | plain i => exact Instr.Ok.mono h hc
  | ensure => exact hc
  | declare => exact hc

theorem callsOk_of : ∀ {cs : List CInstr} {seen : List NodeId}, (∀ c ∈ cs, c.Ok seen) → CallsOk seen cs
  | [], _, _ => trivial
  | c :: cs, seen, h => ⟨h c (by simp), callsOk_of (fun d hd => (h d (List.mem_cons_of_mem _ hd)).mono (fun m hm => List.mem_append_right _ hm))⟩

theorem keys_termAttrs_nodup {p : String} {t : TigerT} (h : (keys t.attrs).Nodup) : (keys (termAttrs p t)).Nodup := by
  have : keys (termAttrs p t) = keys (put (xmlAttrs p t.attrs) (qual p "token") (strV (xval t.attrs "word"))) ++ ["label"] := by simp [keys, termAttrs]
  rw [this, List.nodup_append]
  refine ⟨nodup_put (xmlAttrs_nodup h) _ _, by simp, ?_⟩
  intro x hx y hy
  obtain rfl := List.mem_singleton.1 hy
  rintro rfl
  rw [keys_put] at hx
  split at hx
  · exact xmlAttrs_plain (by decide) hx
  · rcases List.mem_append.1 hx with hx | hx
    · exact xmlAttrs_plain (by decide) hx
    · exact qual_ne_plain (by decide) (List.mem_singleton.1 hx).symm

theorem mem_ntsEdges {p : String} {toks : List NodeId} {e : EdgeSpec} : ∀ {ts before : List TigerNt}, e ∈ ntsEdges p toks before ts ↔ ∃ pre t post, ts = pre ++ t :: post ∧ e ∈ ntEdges p toks (before ++ pre) t := by
  intro ts
  induction ts with
  | nil => intro before; simp [ntsEdges]
  | cons t ts ih =>
    intro before
    rw [ntsEdges, List.mem_append, ih]
    constructor
    · rintro (h | ⟨pre, x, post, rfl, h⟩)
      · exact ⟨[], t, ts, rfl, by simpa using h⟩
      · exact ⟨t :: pre, x, post, rfl, by simpa using h⟩
    · rintro ⟨pre, x, post, e1, h⟩
      cases pre with
      | nil =>
        injection e1 with e2 e3
        subst e2
        exact .inl (by simpa using h)
      | cons y pre =>
        injection e1 with e2 e3
        subst e2
        exact .inr ⟨pre, x, post, e3, by simpa using h⟩

/-- all edges given in a valid file have proper attributes -/
theorem fileEdges_ok {p : String} {s : TigerS} (hv : s.Valid) : ∀ e ∈ fileEdges p s, e.layers ≠ [] ∧ (keys e.attrs).Nodup ∧ e.source ∈ s.declared ∧ e.target ∈ s.declared := by
  have hdt : ∀ t ∈ s.terms, t.node ∈ s.declared := fun t ht => List.mem_append_left _ (List.mem_map_of_mem ht)
  have hdn : ∀ t ∈ s.nts, t.node ∈ s.declared := fun t ht => List.mem_append_right _ (List.mem_map_of_mem ht)
  intro e he
  rcases List.mem_append.1 he with he | he
  · obtain ⟨t, ht, he⟩ := List.mem_flatMap.1 he
    obtain ⟨x, hx, rfl⟩ := List.mem_map.1 he
    refine ⟨by simp, ?_, hdt t ht, hv.refs _ (List.mem_append_left _ (List.mem_flatMap.2 ⟨t, ht, List.mem_map_of_mem hx⟩))⟩
    have : keys (xmlAttrs p x ++ [("edge_type", strV "points_to")]) = keys (xmlAttrs p x) ++ ["edge_type"] := by simp [keys]
    show (keys (xmlAttrs p x ++ [("edge_type", strV "points_to")])).Nodup
    rw [this, List.nodup_append]
    refine ⟨xmlAttrs_nodup ((hv.term t ht).2 x hx).1, by simp, ?_⟩
    intro a ha b hb
    obtain rfl := List.mem_singleton.1 hb
    rintro rfl
    exact xmlAttrs_plain (by decide) ha
  · obtain ⟨pre, t, post, hs, he⟩ := mem_ntsEdges.1 he
    have ht : t ∈ s.nts := by rw [hs]; simp
    rcases List.mem_append.1 he with he | he
    · obtain ⟨x, hx, rfl⟩ := List.mem_map.1 he
      exact ⟨by simp, keys_label_type ((hv.nt t ht).2.1 x hx).1 _ _, hdn t ht, hv.refs _ (List.mem_append_right _ (List.mem_flatMap.2 ⟨t, ht, List.mem_append_left _ (List.mem_map_of_mem hx)⟩))⟩
    · obtain ⟨x, hx, rfl⟩ := List.mem_map.1 he
      exact ⟨by simp, keys_label_type ((hv.nt t ht).2.2 x hx).1 _ _, hdn t ht, hv.refs _ (List.mem_append_right _ (List.mem_flatMap.2 ⟨t, ht, List.mem_append_right _ (List.mem_map_of_mem hx)⟩))⟩

theorem mem_ntsCalls {p : String} {toks : List NodeId} {c : CInstr} : ∀ {ts before : List TigerNt}, c ∈ ntsCalls p toks before ts ↔ (∃ t ∈ ts, c = .declare t.node [p, qual p "syntax"] (ntAttrs p t)) ∨ ∃ e ∈ ntsEdges p toks before ts, c ∈ link p e := by
  intro ts
  induction ts with
  | nil => intro before; simp [ntsCalls, ntsEdges]
  | cons t ts ih =>
    intro before
    rw [ntsCalls, ntsEdges, List.mem_append, ih]
    unfold ntCalls
    simp only [List.mem_cons, List.mem_flatMap, List.mem_append, or_and_right, exists_or, exists_eq_left]
    generalize (∃ t ∈ ts, c = CInstr.declare t.node [p, qual p "syntax"] (ntAttrs p t)) = X
    generalize (∃ e, e ∈ ntsEdges p toks (before ++ [t]) ts ∧ c ∈ link p e) = Y
    generalize (∃ e, e ∈ ntEdges p toks before t ∧ c ∈ link p e) = Z
    tauto

/-- the calls for a sentence -/
theorem mem_sentCalls {p : String} {s : TigerS} {c : CInstr} : c ∈ sentCalls p s ↔ c = .plain (.node s.root (rootLayers p) []) ∨ (∃ t ∈ s.terms, c = .plain (.node t.node [p, qual p "token"] (termAttrs p t))) ∨
    c = .plain (.attr s.root "tokens" (idList (sentToks s))) ∨ (∃ n ∈ sentToks s, c = .plain (.token n)) ∨ (∃ t ∈ s.nts, c = .declare t.node [p, qual p "syntax"] (ntAttrs p t)) ∨ ∃ e ∈ fileEdges p s, c ∈ link p e := by
  unfold sentCalls fileEdges
  simp only [List.mem_cons, List.mem_append, mem_ntsCalls, List.mem_flatMap, List.mem_map, or_and_right, exists_or]
  have h1 : (∃ t ∈ s.terms, c ∈ termCalls p t) ↔ (∃ t ∈ s.terms, c = .plain (.node t.node [p, qual p "token"] (termAttrs p t))) ∨ ∃ e, (∃ t ∈ s.terms, e ∈ termEdges p t) ∧ c ∈ link p e := by
    unfold termCalls
    simp only [List.mem_cons, List.mem_flatMap, and_or_left, exists_or]
    constructor
    · rintro (h | ⟨t, ht, e, he, hc⟩)
      · exact .inl h
      · exact .inr ⟨e, ⟨t, ht, he⟩, hc⟩
    · rintro (h | ⟨e, ⟨t, ht, he⟩, hc⟩)
      · exact .inl h
      · exact .inr ⟨t, ht, e, he, hc⟩
  rw [h1]
  have h2 : (∃ n ∈ sentToks s, CInstr.plain (.token n) = c) ↔ ∃ n ∈ sentToks s, c = .plain (.token n) := by
    constructor <;> (rintro ⟨n, hn, rfl⟩; exact ⟨n, hn, rfl⟩)
  rw [h2]
  generalize (∃ e, (∃ t ∈ s.terms, e ∈ termEdges p t) ∧ c ∈ link p e) = X
  generalize (∃ t ∈ s.terms, c = CInstr.plain (.node t.node [p, qual p "token"] (termAttrs p t))) = Y
  generalize (∃ t ∈ s.nts, c = CInstr.declare t.node [p, qual p "syntax"] (ntAttrs p t)) = Z
  generalize (∃ e, e ∈ ntsEdges p s.toks [] s.nts ∧ c ∈ link p e) = W
  generalize (∃ n ∈ sentToks s, c = CInstr.plain (.token n)) = V
  tauto

/-- the tokens a call appends to the token list -/
def CInstr.newTokens : CInstr → List NodeId
  | .plain i => i.newTokens
  | _ => []

theorem newTokens_compile (cs : List CInstr) : ∀ {seen : List NodeId}, (compile seen cs).flatMap Instr.newTokens = cs.flatMap CInstr.newTokens := by
  induction cs with
  | nil => intro _; rfl
  | cons c cs ih =>
    intro seen
    rw [compile, List.flatMap_append, ih, List.flatMap_cons]
    congr 1
    cases c with
    | plain i => simp [CInstr.instrs, CInstr.newTokens]
    | ensure n ls => simp only [CInstr.instrs, CInstr.newTokens]; split <;> simp [Instr.newTokens]
    | declare n ls d => simp only [CInstr.instrs, CInstr.newTokens]; split <;> simp [Instr.newTokens, List.flatMap_map]

theorem newTokens_link (p : String) (es : List EdgeSpec) : (es.flatMap (link p)).flatMap CInstr.newTokens = [] := by
  simp [link, CInstr.newTokens, Instr.newTokens, List.flatMap_assoc]

theorem newTokens_sent (ns : List NodeId) : (ns.map (fun n => CInstr.plain (.token n))).flatMap CInstr.newTokens = ns := by
  induction ns with
  | nil => rfl
  | cons n ns ih => rw [List.map_cons, List.flatMap_cons, ih]; rfl

theorem newTokens_terms (p : String) (ts : List TigerT) : (ts.flatMap (termCalls p)).flatMap CInstr.newTokens = [] := by
  rw [List.flatMap_assoc]
  rw [List.flatMap_eq_nil_iff]
  intro t _
  unfold termCalls
  rw [List.flatMap_cons, newTokens_link]
  rfl

theorem newTokens_nts (p : String) (toks : List NodeId) : ∀ (ts before : List TigerNt), (ntsCalls p toks before ts).flatMap CInstr.newTokens = [] := by
  intro ts
  induction ts with
  | nil => intro _; rfl
  | cons t ts ih =>
    intro before
    rw [ntsCalls, List.flatMap_append, ih]
    unfold ntCalls
    rw [List.flatMap_cons, newTokens_link]
    rfl

theorem sentCalls_ok {p : String} {s : TigerS} (hv : s.Valid) : CallsOk [] (sentCalls p s) := by
  have key : ∀ c ∈ sentCalls p s, c.Ok [s.root] := by
    intro c hc
    rcases mem_sentCalls.1 hc with rfl | ⟨t, ht, rfl⟩ | rfl | ⟨n, _, rfl⟩ | ⟨t, ht, rfl⟩ | ⟨e, he, hc⟩
    · exact ⟨by simp [rootLayers], by simp [keys]⟩
    · exact ⟨by simp, keys_termAttrs_nodup (hv.term t ht).1.1⟩
    · exact ⟨by simp, by decide⟩
    · trivial
    · exact ⟨by simp, ntAttrs_ok (hv.nt t ht).1.1⟩
    · obtain ⟨h1, h2, _⟩ := fileEdges_ok hv e he
      unfold link at hc
      simp only [List.mem_cons, List.not_mem_nil, or_false] at hc
      rcases hc with rfl | rfl
      · simp [CInstr.Ok]
      · exact ⟨h1, h2⟩
  unfold sentCalls at key ⊢
  refine ⟨⟨by simp [rootLayers], by simp [keys]⟩, callsOk_of ?_⟩
  intro c hc
  exact key c (List.mem_cons_of_mem _ hc)

theorem firstGives_mem {m : NodeId} {l : Atom} : ∀ {cs : List CInstr}, FirstGives m l cs → ∃ c ∈ cs, c.MayGive m l
  | c :: cs, h => by
    rcases h with h | ⟨_, h⟩
    · exact ⟨c, by simp, h⟩
    · obtain ⟨d, hd, h⟩ := firstGives_mem h
      exact ⟨d, List.mem_cons_of_mem _ hd, h⟩

theorem cexecs_tokens (ns : List NodeId) : ∀ g : DG, cexecs g (ns.map (fun n => .plain (.token n))) = .ok { g with tokens := g.tokens ++ ns } := by
  induction ns with
  | nil => intro g; simp [cexecs_nil]
  | cons n ns ih =>
    intro g
    rw [List.map_cons, cexecs_cons]
    show cexecs { g with tokens := g.tokens ++ [n] } _ = _
    rw [ih]
    simp

theorem tigerIds_ok {s : TigerS} (hv : s.Valid) : tigerIds s = .ok s.toks := by
  unfold tigerIds TigerS.toks
  have : ∀ ts : List TigerT, (∀ t ∈ ts, "id" ∈ keys t.attrs) → mapE (fun t : TigerT => do let id ← elemAttr t.attrs "id"; return NodeId.str id) ts = .ok (ts.map TigerT.node) := by
    intro ts
    induction ts with
    | nil => intro _; rfl
    | cons t ts ih =>
      intro h
      rw [mapE, ih (fun x hx => h x (List.mem_cons_of_mem _ hx)), xmlAttr_ok (h t (by simp))]
      rfl
  exact this s.terms (fun t ht => (hv.term t ht).1.2 _ (by simp))

/-- the empty graph a sentence starts with -/
structure Blank (p : String) (r : NodeId) (g : DG) : Prop where
  nodes : g.nodes = []
  adj : g.adj = []
  ns : g.ns = p
  root : g.root = r
  tokens : g.tokens = []
  sentences : g.sentences = []

theorem Blank.inv {p : String} {r : NodeId} {g : DG} (h : Blank p r g) : Inv g ∧ NodesLayered False g := by
  have hn : ∀ n, g.nodeAttrs n = none := by intro n; unfold nodeAttrs; rw [h.nodes]; rfl
  have hk : ∀ u v, g.kd? u v = none := by intro u v; unfold kd?; rw [h.adj]; rfl
  refine ⟨⟨⟨by rw [h.nodes]; simp [keys], by rw [h.nodes, h.adj]; rfl, ?_, ?_, ?_, ?_⟩, ⟨?_, ?_⟩, ?_⟩, ?_⟩
  · intro u nb hf; rw [h.adj] at hf; cases hf
  · intro u v kd hf; rw [hk] at hf; cases hf
  · intro u v kd hf; rw [hk] at hf; cases hf
  · intro u v kd hf; rw [hk] at hf; cases hf
  · intro n a hf; rw [hn] at hf; cases hf
  · intro u v k a hf; unfold edgeAttrs at hf; rw [hk] at hf; cases hf
  · intro u v k a hf; unfold edgeAttrs at hf; rw [hk] at hf; cases hf
  · intro n a hf; rw [hn] at hf; cases hf

theorem Blank.noNode {p : String} {r : NodeId} {g : DG} (h : Blank p r g) (m : NodeId) : ¬ g.HasNode m := by
  rw [hasNode_some]
  unfold nodeAttrs
  rw [h.nodes]
  rintro ⟨a, ha⟩
  cases ha

/-- calls before the nonterminals -/
def headCalls (p : String) (s : TigerS) : List CInstr :=
  .plain (.node s.root (rootLayers p) []) :: (s.terms.flatMap (termCalls p) ++ (.plain (.attr s.root "tokens" (idList (sentToks s))) :: (sentToks s).map (fun n => .plain (.token n))))

theorem sentCalls_head (p : String) (s : TigerS) : sentCalls p s = headCalls p s ++ ntsCalls p s.toks [] s.nts := by
  unfold sentCalls headCalls
  simp

theorem callsOk_append {a b : List CInstr} : ∀ {seen : List NodeId}, CallsOk seen (a ++ b) → CallsOk seen a := by
  induction a with
  | nil => intro _ _; trivial
  | cons c a ih => intro seen h; exact ⟨h.1, ih h.2⟩

theorem tigerSentence2graph_built {p : String} {s : TigerS} (hv : s.Valid) {g : DG} (hg : Blank p s.root g) : ∃ g', g.tigerSentence2graph s = .ok g' ∧ Built g (compile [] (sentCalls p s)) g' := by
  obtain ⟨hi, hl⟩ := hg.inv
  have hs : ∀ m, g.HasNode m ↔ m ∈ ([] : List NodeId) := fun m => ⟨fun h => (hg.noNode m h).elim, fun h => by cases h⟩
  have hokAll := sentCalls_ok (p := p) hv
  obtain ⟨gA, eA, _, bA⟩ := cexecs_built (headCalls p s) hi hl hs (callsOk_append (b := ntsCalls p s.toks [] s.nts) (by rw [← sentCalls_head]; exact hokAll))
  have tA : TokState p s.toks gA := by
    refine ⟨bA.inv, bA.layered, bA.ns.trans hg.ns, fun n => ?_⟩
    rw [bA.layer, givesLayer_compile]
    have hroot : (Atom.str (qual p "token")) ∉ (rootLayers p).map Atom.str := by
      unfold rootLayers
      simp only [List.map_cons, List.map_nil, List.mem_cons, Atom.str.injEq, List.not_mem_nil, or_false, not_or]
      exact ⟨(token_ne_ns p _).symm, fun h => absurd (qual_inj h) (by decide), fun h => absurd (qual_inj h) (by decide), fun h => absurd (qual_inj h) (by decide)⟩
    constructor
    · rintro (⟨a, ha, _⟩ | (⟨c, hc, h⟩ | ⟨_, h⟩) | ⟨_, _, h⟩)
      · exact (hg.noNode n ((hasNode_some _ _).2 ⟨a, ha⟩)).elim
      · have hc : c ∈ sentCalls p s := by rw [sentCalls_head]; exact List.mem_append_left _ hc
        rcases mem_sentCalls.1 hc with rfl | ⟨t, ht, rfl⟩ | rfl | ⟨x, _, rfl⟩ | ⟨t, ht, rfl⟩ | ⟨e, he, hc⟩
        · exact (hroot h.2).elim
        · rw [h.1]; exact List.mem_map_of_mem ht
        · exact h.elim
        · exact h.elim
        · exact h.elim
        · unfold link at hc
          simp only [List.mem_cons, List.not_mem_nil, or_false] at hc
          rcases hc with rfl | rfl
          · exact h.elim
          · exact h.elim
      · obtain ⟨c, hc, h⟩ := firstGives_mem h
        have hc : c ∈ sentCalls p s := by rw [sentCalls_head]; exact List.mem_append_left _ hc
        exfalso
        rcases mem_sentCalls.1 hc with rfl | ⟨t, ht, rfl⟩ | rfl | ⟨x, _, rfl⟩ | ⟨t, ht, rfl⟩ | ⟨e, he, hc⟩
        · exact h
        · exact h
        · exact h
        · exact h
        · have h := h.2
          simp only [List.map_cons, List.map_nil, List.mem_cons, Atom.str.injEq, List.not_mem_nil, or_false] at h
          rcases h with h | h
          · exact token_ne_ns p _ h.symm
          · exact absurd (qual_inj h) (by decide)
        · unfold link at hc
          simp only [List.mem_cons, List.not_mem_nil, or_false] at hc
          rcases hc with rfl | rfl
          · have h := h.2
            simp only [List.map_cons, List.map_nil, List.mem_cons, Atom.str.injEq, List.not_mem_nil, or_false] at h
            rcases h with h | h
            · exact token_ne_ns p _ h.symm
            · exact absurd (qual_inj h) (by decide)
          · exact h
      · rw [hg.ns] at h
        exact (token_ne_ns p _ (Atom.str.inj h).symm).elim
    · intro h
      obtain ⟨t, ht, rfl⟩ := List.mem_map.1 h
      refine .inr (.inl (.inl ⟨.plain (.node t.node [p, qual p "token"] (termAttrs p t)), ?_, rfl, by simp⟩))
      unfold headCalls
      refine List.mem_cons_of_mem _ (List.mem_append_left _ (List.mem_flatMap.2 ⟨t, ht, ?_⟩))
      unfold termCalls
      simp
  obtain ⟨gB, cB, _, eB⟩ := tigerNts_eq (p := p) (toks := s.toks) (ts := s.nts) (before := []) (by simpa using hv.nt) (by simpa using hv.label) tA
  have call : cexecs g (sentCalls p s) = .ok gB := by rw [sentCalls_head, cexecs_append, eA]; exact cB
  obtain ⟨g', e', _, b'⟩ := cexecs_built (sentCalls p s) hi hl hs hokAll
  rw [call] at e'
  obtain rfl := Except.ok.inj e'
  refine ⟨gB, ?_, b'⟩
  unfold tigerSentence2graph
  unfold headCalls at eA
  rw [cexecs_cons] at eA
  have e0 : g.addNode g.root (.set [.str g.ns, .str (qual g.ns "sentence"), .str (qual g.ns "sentence:root"), .str (qual g.ns "syntax")]) .none [] = (CInstr.plain (.node s.root (rootLayers p) [])).exec g := by
    rw [hg.ns, hg.root]; rfl
  rw [e0]
  cases h1 : (CInstr.plain (.node s.root (rootLayers p) [])).exec g with
  | error x => rw [h1] at eA; cases eA
  | ok g1 =>
    rw [h1] at eA
    change cexecs g1 _ = _ at eA
    have m1 := cexec_ns_root h1
    show (s.terms.foldlM tigerTerm g1 >>= _) = _
    rw [foldlM_ccalls (p := p) (r := s.root) tigerTerm (termCalls p) s.terms (fun g2 t ht h2 _ => tigerTerm_eq h2 (hv.term t ht).1 (hv.term t ht).2) g1 (m1.1.trans hg.ns) (m1.2.trans hg.root)]
    rw [cexecs_append] at eA
    cases h2 : cexecs g1 (s.terms.flatMap (termCalls p)) with
    | error x => rw [h2] at eA; cases eA
    | ok g2 =>
      rw [h2] at eA
      change cexecs g2 _ = _ at eA
      have m2 := cexecs_ns_root _ h2
      show (tigerIds s >>= _) = _
      rw [tigerIds_ok hv]
      show (g2.setAttr g2.root "tokens" (.list ((naturalSorted s.toks).map tigerSentence2graph.idAtom)) >>= _) = _
      rw [m2.2.trans (m1.2.trans hg.root)]
      rw [cexecs_cons] at eA
      change ((g2.setAttr s.root "tokens" (.list ((naturalSorted s.toks).map tigerSentence2graph.idAtom))) >>= _) = _ at eA
      cases h3 : g2.setAttr s.root "tokens" (.list ((naturalSorted s.toks).map tigerSentence2graph.idAtom)) with
      | error x => rw [h3] at eA; cases eA
      | ok g3 =>
        rw [h3] at eA
        change cexecs g3 _ = _ at eA
        rw [cexecs_tokens] at eA
        obtain rfl := Except.ok.inj eA
        have ht : g3.tokens = [] := by
          have h4 := bA.tokens
          rw [hg.tokens, List.nil_append] at h4
          have h5 : (compile [] (headCalls p s)).flatMap Instr.newTokens = sentToks s := by
            rw [newTokens_compile]
            unfold headCalls
            rw [List.flatMap_cons, List.flatMap_append, newTokens_terms, List.flatMap_cons, newTokens_sent]
            rfl
          rw [h5] at h4
          exact List.append_left_eq_self.1 h4
        show (s.nts.foldlM tigerNt ({ g3 with tokens := naturalSorted s.toks }, none) >>= _) = _
        have eB' : s.nts.foldlM tigerNt ({ g3 with tokens := naturalSorted s.toks }, none) = .ok (gB, lastAttribs p ([] ++ s.nts)) := by
          have : ({ g3 with tokens := naturalSorted s.toks } : DG) = { g3 with tokens := g3.tokens ++ sentToks s } := by rw [ht]; rfl
          rw [this]
          exact eB
        rw [eB']
        rfl

end DG
end Dg
