import Verif.Lemmas.RstEvents
import Verif.Props.C41

/-! The tokens of an RST graph. -/

namespace Dg
open Dict
namespace DG

theorem rstTokenId_eq (ns : String) (x : Rs3Xml) (i : Nat) (w : List Char) : rstTokenId ns (rstId ns x.id) i = RstTok.node ns ⟨x, i, w⟩ := by
  unfold rstTokenId RstTok.node rstId
  congr 2
  simp only [rstTokenId.fmtId]
  apply String.toList_inj.1
  simp [qual, String.toList_append, String.toList_ofList]

theorem tok_node_inj {ns : String} {s t : RstTok} (h : s.node ns = t.node ns) : s.seg.id = t.seg.id ∧ s.num = t.num := by
  have h1 := String.ofList_injective (qual_inj (qual_inj (NodeId.str.inj h)))
  have h2 := congrArg List.reverse h1
  simp only [List.reverse_append, List.reverse_cons, List.reverse_nil, List.nil_append, List.singleton_append] at h2
  obtain ⟨h3, h4⟩ := sep_cancel (by simpa using underscore_decimal _) (by simpa using underscore_decimal _) h2
  exact ⟨List.reverse_inj.1 h4, decimal_injective (List.reverse_inj.1 h3)⟩

theorem tok_node_ne {ns : String} {t : RstTok} {id : List Char} (h : ':' ∉ id) : t.node ns ≠ rstId ns id := by
  intro e
  have h1 := congrArg String.toList (qual_inj (NodeId.str.inj e))
  rw [String.toList_ofList] at h1
  apply h
  rw [← h1]
  simp [qual, String.toList_append]

theorem tok_node_root {ns : String} {t : RstTok} : t.node ns ≠ docRoot ns := by
  have := tok_node_ne (ns := ns) (t := t) (id := "root_node".toList) (by decide)
  intro e
  apply this
  rw [e]
  rfl

/-- the attributes of a token -/
def tokAttrs (ns : String) (t : RstTok) : Attrs := [(qual ns "token", strVal t.word), ("label", strVal t.word)]

/-- the content after the tokens `ts` have been added -/
def tokView (w : View) (ns : String) (ts : List RstTok) : View where
  ns := w.ns
  root := w.root
  tokens := w.tokens ++ ts.map (RstTok.node ns)
  sentences := w.sentences
  has m := w.has m ∨ ∃ t ∈ ts, m = t.node ns
  attr m k := match ts.find? (fun t => decide (t.node ns = m)) with
    | some t => find (tokAttrs ns t) k
    | none => w.attr m k
  layer m l := w.layer m l ∨ ∃ t ∈ ts, m = t.node ns ∧ (l = .str ns ∨ l = .str (qual ns "token"))
  edges := w.edges ++ ts.map (tokEdge ns)

theorem tokView_nil (w : View) (ns : String) {g : DG} (h : Sees g w) : Sees g (tokView w ns []) := by
  refine h.congr rfl rfl ?_ rfl ?_ ?_ ?_ ?_
  · simp [tokView]
  · simp [tokView]
  · intro m k _; rfl
  · simp [tokView]
  · simp [tokView]

/-- a token is added -/
theorem addToken_ok {w : View} {ns : String} {ts : List RstTok} {g : DG} (hw : w.ns = ns) (hs : Sees g (tokView w ns ts)) {t : RstTok} (hseg : w.has (rstNode ns t.seg)) (hnew : ∀ s ∈ ts, s.node ns ≠ t.node ns) (hno : ¬ w.has (t.node ns)) (hsane : ∀ k, w.attr (t.node ns) k = none) :
    ∃ g', rstAddToken (rstNode ns t.seg) g (t.word, t.num) = .ok g' ∧ Sees g' (tokView w ns (ts ++ [t])) := by
  have hns : g.ns = ns := hs.ns.trans hw
  have ql : ∀ s, "label" ≠ qual ns s := fun s h => qual_ne_plain (by decide) h.symm
  have qy : ∀ s, "layers" ≠ qual ns s := fun s h => qual_ne_plain (by decide) h.symm
  obtain ⟨g1, e1, s1⟩ := hs.node (t.node ns) (ls := [ns, qual ns "token"]) (d := tokAttrs ns t) (by simp) (by simp [tokAttrs, keys, Ne.symm (ql _)])
  have s2 := s1.token (t.node ns)
  obtain ⟨g2, e2, s3⟩ := s2.edge (u := rstNode ns t.seg) (v := t.node ns) (.inl (.inl hseg)) (.inr rfl) (ls := ["rst", "rst:token"]) (d := [("edge_type", .atom (.str "spans"))]) (by simp) (by simp [keys])
  refine ⟨g2, ?_, ?_⟩
  · unfold rstAddToken
    have hid : rstTokenId g.ns (rstNode ns t.seg) t.num = t.node ns := by
      rw [hns]
      exact rstTokenId_eq ns t.seg t.num t.word
    simp only [hid]
    have e1' : g.addNode (t.node ns) (.set [.str g.ns, .str (qual g.ns "token")]) (.dict [(qual g.ns "token", strVal t.word), ("label", strVal t.word)]) [] = .ok g1 := by
      rw [hns, ← e1]
      exact addNode_dict g (t.node ns) [ns, qual ns "token"] (tokAttrs ns t)
    simp only [e1', bind, Except.bind]
    exact e2
  · refine s3.congr rfl rfl ?_ rfl ?_ ?_ ?_ ?_
    · simp [tokView, View.addNode, View.addEdge]
    · intro m
      simp only [tokView, View.addNode, View.addEdge, List.mem_append, List.mem_singleton]
      constructor
      · rintro (h | ⟨s, h | h, e⟩)
        · exact .inl (.inl h)
        · exact .inl (.inr ⟨s, h, e⟩)
        · subst h; exact .inr e
      · rintro ((h | ⟨s, h, e⟩) | h)
        · exact .inl h
        · exact .inr ⟨s, .inl h, e⟩
        · exact .inr ⟨t, .inr rfl, h⟩
    · intro m k _
      simp only [tokView, View.addNode, View.addEdge, List.find?_append]
      by_cases hm : m = t.node ns
      · subst hm
        have hnone : ts.find? (fun s => decide (s.node ns = t.node ns)) = none := by
          rw [List.find?_eq_none]
          intro s hs
          simp [hnew s hs]
        rw [hnone, if_pos rfl]
        simp [hsane]
      · rw [if_neg hm]
        cases hf : ts.find? (fun s => decide (s.node ns = m)) with
        | some s => simp
        | none => simp [Ne.symm hm]
    · intro m l
      simp only [tokView, View.addNode, View.addEdge, List.mem_append, List.mem_singleton]
      constructor
      · rintro (h | ⟨s, h | h, e⟩)
        · exact .inl (.inl h)
        · exact .inl (.inr ⟨s, h, e⟩)
        · subst h; exact .inr ⟨e.1, by simpa using e.2⟩
      · rintro ((h | ⟨s, h, e⟩) | ⟨h, e⟩)
        · exact .inl h
        · exact .inr ⟨s, .inl h, e⟩
        · exact .inr ⟨t, .inr rfl, h, by simpa using e⟩
    · simp only [tokView, View.addNode, View.addEdge, List.map_append, List.map_cons, List.map_nil, List.append_assoc]
      exact List.Perm.refl _

theorem addTokens_ok {w : View} {ns : String} {ts us : List RstTok} {x : Rs3Xml} {g : DG} (hw : w.ns = ns) (hs : Sees g (tokView w ns ts)) (hus : ∀ t ∈ us, t.seg = x) (hseg : w.has (rstNode ns x)) (hnew : ((ts ++ us).map (RstTok.node ns)).Nodup)
    (hno : ∀ t ∈ us, ¬ w.has (t.node ns)) (hsane : ∀ t ∈ us, ∀ k, w.attr (t.node ns) k = none) :
    ∃ g', (us.map (fun t => (t.word, t.num))).foldlM (rstAddToken (rstNode ns x)) g = .ok g' ∧ Sees g' (tokView w ns (ts ++ us)) := by
  induction us generalizing g ts with
  | nil => exact ⟨g, rfl, by simpa using hs⟩
  | cons t us ih =>
    have hx := hus t (by simp)
    obtain ⟨g1, e1, s1⟩ := addToken_ok hw hs (t := t) (hx ▸ hseg) (by
      intro s hs' e
      rw [List.map_append, List.nodup_append] at hnew
      exact hnew.2.2 _ (List.mem_map.2 ⟨s, hs', rfl⟩) _ (by simp) e) (hno t (by simp)) (hsane t (by simp))
    obtain ⟨g2, e2, s2⟩ := ih s1 (fun s hs => hus s (by simp [hs])) (by simpa [List.append_assoc] using hnew) (fun s hs => hno s (by simp [hs])) (fun s hs => hsane s (by simp [hs]))
    refine ⟨g2, ?_, by simpa [List.append_assoc] using s2⟩
    rw [List.map_cons, List.foldlM_cons]
    rw [hx] at e1
    rw [e1]
    exact e2

theorem segTokens_pairs (x : Rs3Xml) : (segTokens x).map (fun t => (t.word, t.num)) = (splitWs x.text).zipIdx := by
  unfold segTokens
  rw [List.map_map]
  exact List.map_id _

theorem segTokens_seg {x : Rs3Xml} {t : RstTok} (h : t ∈ segTokens x) : t.seg = x := by
  unfold segTokens at h
  obtain ⟨w, _, rfl⟩ := List.mem_map.1 h
  rfl

theorem segTokens_nodup (ns : String) (x : Rs3Xml) : ((segTokens x).map (RstTok.node ns)).Nodup := by
  have h0 : ((splitWs x.text).zipIdx.map Prod.snd).Nodup := by
    rw [List.zipIdx_map_snd]
    exact List.nodup_range'
  have h1 : ((segTokens x).map RstTok.num).Nodup := by
    unfold segTokens
    rw [List.map_map]
    exact h0
  rw [List.nodup_iff_pairwise_ne, List.pairwise_map] at h1 ⊢
  exact h1.imp (fun h e => h (tok_node_inj e).2)

theorem tokens_nodup (ns : String) {xs : List Rs3Xml} (h : (xs.map Rs3Xml.id).Nodup) : ((xs.flatMap segTokens).map (RstTok.node ns)).Nodup := by
  induction xs with
  | nil => simp
  | cons x xs ih =>
    rw [List.flatMap_cons, List.map_append, List.nodup_append]
    rw [List.map_cons, List.nodup_cons] at h
    refine ⟨segTokens_nodup ns x, ih h.2, ?_⟩
    rintro _ ha _ hb rfl
    obtain ⟨t, ht, rfl⟩ := List.mem_map.1 ha
    obtain ⟨s, hs, e⟩ := List.mem_map.1 hb
    obtain ⟨y, hy, hs⟩ := List.mem_flatMap.1 hs
    have := (tok_node_inj e).1
    rw [segTokens_seg ht, segTokens_seg hs] at this
    exact h.1 (this ▸ List.mem_map.2 ⟨y, hy, rfl⟩)

/-- all segments are tokenized -/
theorem tokenize_ok {w : View} {ns : String} (hw : w.ns = ns) {xs : List Rs3Xml} {ts : List RstTok} {g : DG} (hs : Sees g (tokView w ns ts)) (hseg : ∀ x ∈ xs, w.has (rstNode ns x)) (htext : ∀ x ∈ xs, w.attr (rstNode ns x) (qual ns "text") = some (strVal x.text))
    (hnew : ((ts ++ xs.flatMap segTokens).map (RstTok.node ns)).Nodup) (hno : ∀ t : RstTok, ¬ w.has (t.node ns)) (hsane : ∀ m k, k ≠ "layers" → ¬ w.has m → w.attr m k = none) (hlay : ∀ m, w.attr m "layers" = none) :
    ∃ g', (xs.map (rstNode ns)).foldlM rstTokenizeSegment g = .ok g' ∧ Sees g' (tokView w ns (ts ++ xs.flatMap segTokens)) := by
  induction xs generalizing g ts with
  | nil => exact ⟨g, rfl, by simpa using hs⟩
  | cons x xs ih =>
    rw [List.flatMap_cons, ← List.append_assoc] at hnew ⊢
    have hns : g.ns = ns := hs.ns.trans hw
    have hsn : ∀ (t : RstTok) k, w.attr (t.node ns) k = none := by
      intro t k
      by_cases hk : k = "layers"
      · rw [hk]; exact hlay _
      · exact hsane _ k hk (hno t)
    obtain ⟨g1, e1, s1⟩ := addTokens_ok (us := segTokens x) (x := x) hw hs (fun t ht => segTokens_seg ht) (hseg x (by simp)) (by
      rw [List.map_append, List.nodup_append] at hnew; exact hnew.1) (fun t _ => hno t) (fun t _ => hsn t)
    obtain ⟨g2, e2, s2⟩ := ih s1 (fun y hy => hseg y (by simp [hy])) (fun y hy => htext y (by simp [hy])) hnew
    refine ⟨g2, ?_, s2⟩
    rw [List.map_cons, List.foldlM_cons]
    have htx : g.getAttr (rstNode ns x) (qual ns "text") = .ok (strVal x.text) := by
      rw [getAttr_ok, hs.attr _ _ (fun h => qual_ne_plain (by decide) h)]
      have hf : ts.find? (fun t => decide (t.node ns = rstNode ns x)) = none := by
        rw [List.find?_eq_none]
        intro t _
        simp only [decide_eq_true_eq]
        intro e
        exact hno t (e ▸ hseg x (by simp))
      simp only [tokView, hf]
      exact htext x (by simp)
    have hw' : g.rstWords (rstNode ns x) = .ok (splitWs x.text) := by
      unfold rstWords
      rw [hns, htx]
      simp only [bind, Except.bind, strVal, String.toList_ofList]
      rfl
    have : rstTokenizeSegment g (rstNode ns x) = .ok g1 := by
      unfold rstTokenizeSegment
      rw [hw']
      rw [segTokens_pairs] at e1
      exact e1
    rw [this]
    exact e2

/-- a precedence edge -/
theorem prec_ok {w : View} {g : DG} (hs : Sees g w) {u v : NodeId} (hu : w.has u) (hv : w.has v) : ∃ g', g.addPrecedenceEdge u v = .ok g' ∧ Sees g' (w.addEdge (precEdge w.ns u v)) := by
  obtain ⟨g1, e1, s1⟩ := hs.edge hu hv (ls := [w.ns, qual w.ns "precedence"]) (d := [("edge_type", .atom (.str "precedes"))]) (by simp) (by simp [keys])
  refine ⟨g1, ?_, s1⟩
  rw [← e1]
  unfold addPrecedenceEdge precedenceLayers
  rw [hs.ns]
  rfl

theorem precLoop_ok {w : View} {g : DG} (hs : Sees g w) (a : NodeId) (ts : List NodeId) (ha : w.has a) (ht : ∀ t ∈ ts, w.has t) :
    ∃ g', g.addPrecedenceLoop (a :: ts) = (g', none) ∧ Sees g' { w with edges := w.edges ++ precEdges w.ns a ts } := by
  induction ts generalizing g w a with
  | nil => exact ⟨g, rfl, by simpa [precEdges] using hs⟩
  | cons b ts ih =>
    obtain ⟨g1, e1, s1⟩ := prec_ok hs ha (ht b (by simp))
    obtain ⟨g2, e2, s2⟩ := ih s1 b (ht b (by simp)) (fun t h => ht t (by simp [h]))
    refine ⟨g2, ?_, ?_⟩
    · unfold addPrecedenceLoop
      rw [e1]
      exact e2
    · simpa [precEdges, View.addEdge] using s2

/-- all precedence edges -/
theorem precedence_ok {w : View} {g : DG} (hs : Sees g w) (hr : w.has w.root) (ht : ∀ t ∈ w.tokens, w.has t) (h2 : 2 ≤ w.tokens.length) :
    ∃ g', g.addPrecedenceRelations = (g', none) ∧ Sees g' { w with edges := w.edges ++ precEdges w.ns w.root w.tokens } := by
  unfold addPrecedenceRelations
  rw [hs.tokens, hs.root]
  cases hts : w.tokens with
  | nil => rw [hts] at h2; simp at h2
  | cons t0 rest =>
    cases rest with
    | nil => rw [hts] at h2; simp at h2
    | cons t1 rest =>
      rw [hts] at ht
      obtain ⟨g1, e1, s1⟩ := prec_ok hs hr (ht t0 (by simp))
      obtain ⟨g2, e2, s2⟩ := precLoop_ok s1 t0 (t1 :: rest) (ht t0 (by simp)) (fun t h => ht t (by simp [h]))
      refine ⟨g2, ?_, ?_⟩
      · simp only [e1]
        exact e2
      · simpa [precEdges, View.addEdge, hts] using s2

end DG
end Dg
