import Verif.Lemmas.MmaxContent
import Verif.Props.C08

/-! Reading a whole MMAX2 project. -/

namespace Dg
open Dict
open DG (mapE)

theorem baseName_idem (cs : List Char) : baseName (baseName cs) = baseName cs := by
  have h : '/' ∉ baseName cs := by
    unfold baseName
    cases hl : (splitChars '/' cs).getLast? with
    | none => simp
    | some b => exact splitChars_mem _ _ _ (List.mem_of_getLast? hl)
  generalize baseName cs = b at h ⊢
  unfold baseName
  rw [splitChars_no_sep _ _ h]
  rfl

theorem mmaxFileId_base (s : String) : mmaxFileId (String.ofList (baseName s.toList)) = mmaxFileId s := by
  unfold mmaxFileId
  rw [String.toList_ofList, baseName_idem]

namespace DG

variable {ns : String} {doc : MmaxDoc} {precedence connected ignore : Bool} {lv : List (String × List Markable)}

theorem Upto.layered {X Y : NodeId → Atom → Prop} {g g' : DG} (h : Upto X Y g g') (hl : NodesLayered False g) (hx : ∀ n l, X n l → ∃ s, l = Atom.str s) : AllLayered g' := by
  intro n a' ha'
  obtain ⟨a, ha, _, xs, ys, e1, e2, _, h2⟩ := h.nodes.find_some' ha'
  obtain ⟨zs, e3, h3, _⟩ := hl n a ha
  rw [e1] at e3
  cases e3
  refine ⟨ys, e2, ?_⟩
  intro x hx'
  rcases h2 x hx' with h | h
  · exact h3 x h
  · exact hx n x h

theorem extraLayer_str {n : NodeId} {l : Atom} (h : ExtraLayer ns doc n l) : ∃ s, l = Atom.str s := by
  rcases h with ⟨x, _, _, m, _, a, _, b, _, rfl⟩ | ⟨x, _, a, _, _, _, rfl | ⟨m, _, a, _, b, _, rfl⟩⟩ <;> exact ⟨_, rfl⟩

theorem sentence_stray (hd : doc.Ok ns ignore) {m : Markable} (hm : m ∈ doc.sentences ignore) {i : String} (hi : i ∈ m.ids) {ls : List String} {d : Attrs} (hc : NodeCall ns ignore doc (.str i) ls d) : i ∈ doc.wordIds := by
  rcases hd.stray m (.inr hm) i hi with h | ⟨h, hr⟩
  · exact h
  · simp only [List.mem_append, not_or] at h
    rcases hc with ⟨e, _⟩ | ⟨w', hw', e, _⟩ | ⟨y, hy, e, _⟩ | ⟨y, hy, a, ha, hna, e, _⟩ | ⟨hi', m', hm', e, _⟩ <;> injection e with e
    · exact absurd e hr
    · exact e ▸ mem_wordIds hw'
    · exact absurd (e ▸ mem_markIds hy) h.1.1
    · exact absurd (e ▸ mem_anteIds hy ha) h.1.2
    · exact absurd (e ▸ mem_sentIds hi' hm') h.2

theorem sentence_spans (hd : doc.Ok ns ignore) {m : Markable} (hm : m ∈ doc.sentences ignore) : m.Spans := by
  cases hi : ignore with
  | true => subst hi; exact hd.sents rfl m hm
  | false => subst hi; exact (hd.marks _ ((mem_sentences_mark rfl).1 hm)).toSpans

/-- the nodes in the layer of the sentences -/
theorem sentence_layer (hd : doc.Ok ns ignore) (hi : ignore = false) {g g' : DG} (v : MmaxView ns precedence connected ignore doc lv [] g) (u : Upto (ExtraLayer ns doc) (ExtraEdgeLayer ns doc) g g') (n : NodeId) :
    g'.NodeLayer n (.str (qual ns "sentence")) ↔ n ∈ (doc.sentences ignore).map Markable.node := by
  have inj : ∀ a, Atom.str (qual ns "sentence") = .str (qual ns a) → a = "sentence" := by
    intro a h
    injection h with h
    exact (qual_inj h).symm
  have hq : qual ns "sentence" ≠ ns := by
    intro h
    have := congrArg String.length h
    unfold qual at this
    simp [String.length_append] at this
  have hni : ∀ l, NamedIn ns doc l (.str (qual ns "sentence")) → False := by
    rintro l ⟨m, hm, a, ha, b, hb, e⟩
    exact (hd.plain hi _ hm).2 a ha (by rw [hb, inj b e])
  constructor
  · intro h
    rcases u.layer' h with h | h
    · obtain ⟨ls, d, hc, hl⟩ := (v.layer _ _).1 h
      obtain ⟨s, hs, e⟩ := List.mem_map.1 hl
      injection e with e
      subst e
      rcases hc with ⟨_, rfl, _⟩ | ⟨w', hw', _, rfl, _⟩ | ⟨y, hy, rfl, rfl, _⟩ | ⟨y, hy, a, ha, hna, _, rfl, _⟩ | ⟨hi', _⟩
      · simp at hs; exact absurd hs hq
      · simp at hs
        rcases hs with hs | hs
        · exact absurd hs hq
        · exact absurd (qual_inj hs) (by decide)
      · simp [levelLayers] at hs
        rcases hs with hs | hs | hs
        · exact absurd hs hq
        · exact absurd (qual_inj hs) (by decide)
        · refine List.mem_map.2 ⟨y.2, (mem_sentences_mark hi).2 ?_, rfl⟩
          rw [qual_inj hs]; exact hy
      · simp at hs
        rcases hs with hs | hs
        · exact absurd hs hq
        · exact absurd (qual_inj hs) (by decide)
      · rw [hi] at hi'; cases hi'
    · exfalso
      rcases h with ⟨x, hx, _, h⟩ | ⟨x, hx, a, ha, _, _, h | h⟩
      · exact hni _ h
      · have := (hd.plain hi x hx).1 (inj _ h)
        rw [this] at ha; cases ha
      · exact hni _ h
  · intro h
    obtain ⟨m, hm, rfl⟩ := List.mem_map.1 h
    refine u.layer ((v.layer _ _).2 ⟨_, _, .inr (.inr (.inl ⟨_, (mem_sentences_mark hi).1 hm, rfl, rfl, rfl⟩)), by simp [levelLayers]⟩)

/-- the sentences with their tokens -/
theorem mmaxSentences_ok {p : MmaxProject} (hd : doc.Ok ns ignore) (hp : p.Has ignore doc) (hlv : lv.Perm doc.levels) {name : String} (hname : ignore = true → mmaxFileId name = mmaxFileId p.base) {g g' : DG}
    (e : execs (mmaxStart name ns) (mmaxCalls ns precedence connected doc lv) = .ok g) (b : Built (mmaxStart name ns) (mmaxCalls ns precedence connected doc lv) g) (u : Upto (ExtraLayer ns doc) (ExtraEdgeLayer ns doc) g g') :
    ∃ (r r' : DG) (sl : List Markable), Built (mmaxStart name ns) (mmaxBody ns precedence connected ignore doc lv) r ∧ Upto (ExtraLayer ns doc) (ExtraEdgeLayer ns doc) r r' ∧ mmaxSentences p ignore g' = .ok (r', sl.map (sentPair doc)) ∧ sl.Perm (doc.sentences ignore) := by
  have hst : DisState ns (mmaxStart name ns) := init_state name ns
  cases hi : ignore with
  | true =>
    subst hi
    obtain ⟨h1, h2⟩ := hp.sentences rfl
    obtain ⟨r0, f0, _, b0⟩ := execs_state hst (mmaxBody_ok (precedence := precedence) (connected := connected) hd hlv)
    have hv := mmaxView hd hlv (ss := []) (by simpa [finalCalls] using b0)
    have hmono : ∀ m, g.HasNode m → r0.HasNode m := by
      intro m hm
      rw [b0.nodes]
      rcases (b.nodes m).1 hm with h | ⟨i, hi, h⟩
      · exact .inl h
      · exact .inr ⟨i, List.mem_append_left _ hi, h⟩
    have hgw : ∀ i ∈ doc.wordIds, g.HasNode (.str i) := by
      intro i hi
      obtain ⟨w, hw, rfl⟩ := List.mem_map.1 hi
      exact (b.nodes _).2 (.inr ⟨.node (.str w.1) [ns, qual ns "token"] (wordDict ns w), List.mem_append_left _ (tokenCalls_node.2 (.inr ⟨w, hw, rfl, rfl, rfl⟩)), rfl⟩)
    have htok : g.tokens = doc.tokens := by
      have h := hv.tokens
      rw [b0.tokens] at h
      rw [b.tokens]
      unfold mmaxBody at h
      rw [List.flatMap_append] at h
      have h3 : (if true then doc.sents.flatMap (mmaxSentCalls ns doc) else []).flatMap Instr.newTokens = [] := by
        rw [List.flatMap_eq_nil_iff]
        intro i hi
        rw [if_pos rfl] at hi
        obtain ⟨y, _, hi⟩ := List.mem_flatMap.1 hi
        obtain ⟨t, _, rfl⟩ := List.mem_map.1 hi
        rfl
      rw [h3, List.append_nil] at h
      exact h
    obtain ⟨r, r', e1, u1, e2⟩ := mmaxSentences_upto (ns := ns) (doc := doc) doc.sents g g' [] u ⟨b.inv, b.layered, b.ns⟩ b.renamed htok (by
      intro m hm
      refine ⟨sentence_spans hd (ignore := true) hm, fun i hi => ⟨⟨fun h => ?_, fun h => hgw i h⟩, ?_⟩⟩
      · obtain ⟨ls, d, hc⟩ := (hv.nodes _).1 (hmono _ h)
        exact sentence_stray hd (ignore := true) hm hi hc
      · intro hmem
        obtain ⟨m', hm', e⟩ := List.mem_map.1 hmem
        injection e with e
        have hsi : i ∈ doc.sentIds true := e ▸ mem_sentIds rfl hm'
        rcases hd.stray m (.inr hm) i hi with h | h
        · exact (ids_split hd).2.2.2.2.1 i h hsi
        · exact h.1 (List.mem_append_right _ hsi))
    refine ⟨r, r', doc.sents, ?_, u1, ?_, .refl _⟩
    · have : execs (mmaxStart name ns) (mmaxBody ns precedence connected true doc lv) = .ok r := by
        unfold mmaxBody
        rw [execs_append, e, if_pos rfl]; exact e1
      rw [f0] at this
      cases this
      exact b0
    · unfold mmaxSentences
      rw [if_pos rfl, if_pos h1, u.name, b.name]
      show (match p.file (mmaxFileId name) "sentence" with
        | none => _
        | some ms => _) = _
      rw [hname rfl, h2]
      exact e2
  | false =>
    subst hi
    have hbody : mmaxBody ns precedence connected false doc lv = mmaxCalls ns precedence connected doc lv := by
      unfold mmaxBody; simp
    have b0 : Built (mmaxStart name ns) (mmaxBody ns precedence connected false doc lv) g := by rw [hbody]; exact b
    have hv := mmaxView hd hlv (ss := []) (by simpa [finalCalls] using b0)
    obtain ⟨ids, f1, f2, _, f4⟩ := selectNodesByLayer_wf (u.wf b.inv.wf) (u.layered b.layered (fun n l h => extraLayer_str h)) (.one (qual ns "sentence"))
    have hperm : ids.Perm ((doc.sentences false).map Markable.node) := by
      rw [List.perm_ext_iff_of_nodup f2]
      · intro n
        rw [f4]
        show (g'.HasNode n ∧ g'.NodeLayer n _) ↔ _
        rw [← sentence_layer hd rfl hv u n]
        constructor
        · exact And.right
        · intro h
          refine ⟨?_, h⟩
          obtain ⟨a, ha, _⟩ := h
          exact (hasNode_some _ _).2 ⟨a, ha⟩
      · have := (sentences_nodup hd)
        have h2 := this.map (f := NodeId.str) (fun a b h => by injection h)
        rw [List.map_map] at h2
        exact h2
    obtain ⟨sl, hsl, rfl⟩ := perm_map_lift hperm
    refine ⟨g, g', sl, b0, u, ?_, hsl⟩
    unfold mmaxSentences
    rw [if_neg (by simp)]
    rw [show g'.ns = ns from u.ns.trans hv.space, f1]
    show (mapE g'.mmaxSentenceTokens (sl.map Markable.node) >>= fun ss => pure (g', ss)) = _
    have : mapE g'.mmaxSentenceTokens (sl.map Markable.node) = .ok (sl.map (sentPair doc)) := by
      rw [mapE_ok]
      have key : ∀ m ∈ sl, g'.mmaxSentenceTokens m.node = .ok (sentPair doc m) := by
        intro m hm
        have hm := hsl.mem_iff.1 hm
        have hmark := (mem_sentences_mark rfl).1 hm
        have hsp := sentence_spans hd hm
        unfold mmaxSentenceTokens markableSpan
        have hval : g'.nodeAttr m.node (qual ns "span") = some (.atom (.str (xval m.attrs "span"))) := by
          rw [u.nodeAttr _ (qual_ne_plain (by decide)), hv.attr _ _ (qual_ne_plain (by decide)), final_write_none (.inl (qual_ne_plain (by decide)))]
          have := body_write hd hlv (precedence := precedence) (connected := connected) (n := m.node) (.inr (.inr (.inl ⟨("sentence", m), hmark, rfl, rfl, rfl⟩))) (fun ls' d' h => (call_mark hd hmark h).imp And.right And.right) (qual ns "span")
          rw [this, find_markDict]
          unfold markAttr
          rw [if_neg (qual_ne_plain (by decide)), find_xmlAttrs]
          obtain ⟨s, hs⟩ := (mem_keys_iff _ _).1 hsp.span
          unfold xval
          rw [hs]; rfl
        rw [show g'.ns = ns from u.ns.trans hv.space, getAttr_ok.2 hval]
        show (g'.spanstring2tokens (xval m.attrs "span") >>= _) = _
        rw [span_ok (doc := doc) (u.renamed.trans b.renamed) hsp (by
          intro i hi
          rw [u.hasNode, hv.nodes]
          constructor
          · rintro ⟨ls, d, hc⟩
            exact sentence_stray hd hm hi hc
          · intro hw
            obtain ⟨w, hw', rfl⟩ := List.mem_map.1 hw
            exact ⟨_, _, .inr (.inl ⟨w, hw', rfl, rfl, rfl⟩)⟩)]
        show Except.ok (m.node, _) = _
        rw [toks_filter (u.tokens.trans hv.tokens)]
        rfl
      clear * - key
      induction sl with
      | nil => exact .nil
      | cons m sl ih => exact .cons (key m (by simp)) (ih (fun x hx => key x (by simp [hx])))
    rw [this]; rfl

theorem _root_.Dg.MmaxDoc.Ok.stray_marks (hd : doc.Ok ns ignore) : ∀ x ∈ doc.marks, ∀ i ∈ x.2.ids, i ∈ doc.wordIds ∨ (i ∉ doc.markIds ++ doc.anteIds ∧ i ≠ qual ns "root_node") := by
  intro x hx i hi
  refine (hd.stray x.2 (.inl ⟨x.1, hx⟩) i hi).imp id ?_
  rintro ⟨h1, h2⟩
  exact ⟨fun h => h1 (List.mem_append_left _ h), h2⟩

/-- the name of the document -/
def mmaxName (name : Option String) (p : MmaxProject) : String :=
  match name with
  | some n => if n = "" then String.ofList (baseName p.base.toList) else n
  | none => String.ofList (baseName p.base.toList)

/-- the steps of the reader -/
theorem mmaxRead_steps (name : Option String) (ns : String) (precedence connected ignore : Bool) (p : MmaxProject) (order : List String) :
    mmaxRead name ns precedence connected ignore p order = ((((do
        let g1 ← (mmaxStart (mmaxName name p) ns).addNode (.str (qual ns "root_node")) (.set [.str ns]) .none []
        if precedence then do
          let g ← p.words.foldlM (mmaxAddWord false) { g1 with tokens := [] }
          batch g.addPrecedenceRelations
        else p.words.foldlM (mmaxAddWord connected) { g1 with tokens := [] }) >>= fun g2 =>
        order.foldlM (fun g level => g.mmaxAddLevel level (p.file (mmaxFileId p.base) level)) g2)) >>= fun g3 => mmaxSentences p ignore g3 >>= fun x => mmaxSort x.2 >>= fun y => x.1.mmaxSetSentences y) := by
  unfold mmaxRead
  rw [bind_assoc, bind_assoc]
  dsimp only
  cases hq : (mmaxStart (mmaxName name p) ns).addNode (.str (qual ns "root_node")) (.set [.str ns]) .none [] <;> cases precedence <;> (try cases name) <;> simp only [bind, Except.bind] <;> (erw [hq]) <;> first | rfl | (simp only [if_true]; split <;> rfl)

/-- the whole document -/
theorem mmaxRead_content {p : MmaxProject} (hd : doc.Ok ns ignore) (hp : p.Has ignore doc) (name : Option String) {order : List String} (ho : order.Perm (doc.levels.map Prod.fst))
    (hname : ignore = true → ∀ n, name = some n → n = "" ∨ mmaxFileId n = mmaxFileId p.base) (h2 : precedence = true → 2 ≤ doc.words.length) :
    ∃ lv g g', mmaxRead name ns precedence connected ignore p order = .ok g' ∧ lv.Perm doc.levels ∧ lv.map Prod.fst = order ∧ MmaxContent ns precedence connected ignore doc g' ∧
      ∃ ss, MmaxView ns precedence connected ignore doc lv ss g ∧ Upto (ExtraLayer ns doc) (ExtraEdgeLayer ns doc) g g' ∧ g'.renamed = none := by
  obtain ⟨lv, hlv, rfl⟩ := perm_map_lift ho
  let nm : String := mmaxName name p
  have hnm : ignore = true → mmaxFileId nm = mmaxFileId p.base := by
    intro hi
    cases name with
    | none => exact mmaxFileId_base _
    | some n =>
      show mmaxFileId (if n = "" then _ else n) = _
      split
      · exact mmaxFileId_base _
      · rename_i hne
        exact (hname hi n rfl).resolve_left hne
  obtain ⟨g, g', e, b, u, f⟩ := mmaxBase_eq hd.marks hd.stray_marks hp.words hp.files nm precedence connected h2 hlv
  obtain ⟨r, r', sl, br, ur, fs, hsl⟩ := mmaxSentences_ok hd hp hlv hnm e b u
  let ss := pySorted (sentLe doc) sl
  have hss : ss.Perm (doc.sentences ignore) := (pySorted_perm _).trans hsl
  have hsort := mmaxSort_eq (doc := doc) sl (fun m hm => hd.sentenceToks m (hsl.mem_iff.1 hm))
  have hv := mmaxView hd hlv (ss := []) (by simpa [finalCalls] using br)
  have hne : ss ≠ [] := by
    intro h
    have := hss.length_eq
    rw [h] at this
    exact hd.sentences (List.length_eq_zero_iff.1 this.symm)
  have hnode : ∀ m ∈ ss, r.HasNode m.node := by
    intro m hm
    have hm := hss.mem_iff.1 hm
    rw [hv.nodes]
    cases hi : ignore with
    | true =>
      subst hi
      exact ⟨_, _, .inr (.inr (.inr (.inr ⟨rfl, m, hm, rfl, rfl, rfl⟩)))⟩
    | false =>
      subst hi
      exact ⟨_, _, .inr (.inr (.inl ⟨_, (mem_sentences_mark rfl).1 hm, rfl, rfl, rfl⟩))⟩
  have hok : ScriptOk r.HasNode (finalCalls doc ss) := by
    have h1 : ∀ (xs : List Markable) {has : NodeId → Prop}, (∀ m ∈ xs, has m.node) → ScriptOk has (xs.map (fun m => .attr m.node "tokens" (idListVal (doc.toks m)))) := by
      intro xs
      induction xs with
      | nil => intro _ _; trivial
      | cons x xs ih => intro has hh; exact ⟨⟨hh x (by simp), by decide⟩, ih (fun m hm => .inl (hh m (by simp [hm])))⟩
    have h2 : ∀ (xs : List Markable) {has : NodeId → Prop} {s : List Instr}, (∀ {has' : NodeId → Prop}, (∀ n, has n → has' n) → ScriptOk has' s) → ScriptOk has (xs.map (fun m => .sentence m.node) ++ s) := by
      intro xs
      induction xs with
      | nil => intro has s h; exact h (fun _ h => h)
      | cons x xs ih => intro has s h; exact ⟨trivial, ih (fun hh => h (fun n hn => hh n (.inl hn)))⟩
    exact h2 ss (fun hh => h1 ss (fun m hm => hh _ (hnode m hm)))
  obtain ⟨q, fq, bq⟩ := execs_built (finalCalls doc ss) br.inv br.layered hok
  obtain ⟨q', fq', uq⟩ := Upto.execs (by
    intro i hi
    rcases List.mem_append.1 hi with hi | hi <;> obtain ⟨y, _, rfl⟩ := List.mem_map.1 hi
    · trivial
    · exact ⟨trivial, by decide⟩) ur fq
  have hst : DisState ns (mmaxStart nm ns) := init_state nm ns
  have btot := built_append hst.inv hst.layered br bq
  have vq := mmaxView hd hlv btot
  refine ⟨lv, q, q', ?_, hlv, rfl, mmaxContent hd hlv hss ?_ vq uq, ss, vq, uq, uq.renamed.trans btot.renamed⟩
  · have f : ((do
        let g1 ← (mmaxStart nm ns).addNode (.str (qual ns "root_node")) (.set [.str ns]) .none []
        if precedence then do
          let g ← p.words.foldlM (mmaxAddWord false) { g1 with tokens := [] }
          batch g.addPrecedenceRelations
        else p.words.foldlM (mmaxAddWord connected) { g1 with tokens := [] }) >>= fun g2 =>
        (lv.map Prod.fst).foldlM (fun g level => g.mmaxAddLevel level (p.file (mmaxFileId p.base) level)) g2) = .ok g' := f
    rw [mmaxRead_steps, f]
    show (mmaxSentences p ignore g' >>= _) = _
    rw [fs]
    show (mmaxSort (sl.map (sentPair doc)) >>= fun y => r'.mmaxSetSentences y) = _
    rw [hsort]
    show r'.mmaxSetSentences (ss.map (sentPair doc)) = _
    rw [mmaxSetSentences_eq ss hne (ur.sentences.trans hv.sentences)]
    exact fq'
  · have := pySorted_sorted (le := sentLe doc) (fun a b => naturalLe_total _ _) (fun a b c => naturalLe_trans _ _ _) sl
    exact this

end DG
end Dg
