import Verif.Spec.ReadLayers
import Verif.Lemmas.ReadLayer
import Verif.Props.C42
import Verif.Props.C43
import Verif.Props.C55
import Verif.Props.C57
import Verif.Props.C73

/-! **C75** What the readers return can be merged. -/

namespace Dg
open Dict
namespace DG

/-! ### anaphoricity -/

theorem anaphStart_attr (name ns : String) (m : NodeId) (k : String) (hk : k ≠ "layers") : (anaphStart name ns).nodeAttr m k = if m = .str "anaphoricity:root_node" ∧ k = "metadata" then some (.dict []) else none := by
  show (find [(NodeId.str "anaphoricity:root_node", [("layers", Val.set [.str "anaphoricity"]), ("metadata", .dict [])])] m).bind (fun a => find a k) = _
  by_cases hm : m = .str "anaphoricity:root_node"
  · subst hm
    by_cases h : k = "metadata"
    · subst h; simp [find]
    · simp [find, Ne.symm hk, Ne.symm h, h]
  · simp [find, Ne.symm hm, hm]

theorem anaphToken_keys {ns : String} {w : List Char} {at' : Attrs} {ls : List String} (h : AnaphToken ns w at' ls) {k : String} (hk : k ∈ keys at') :
    k = qual ns "annotation" ∨ k = qual ns "certainty" ∨ k = qual ns "token" ∨ k = "label" := by
  cases h with
  | plain _ => simp [keys] at hk; tauto
  | annotated _ => simpa [keys] using hk

theorem anaphToken_string {ns : String} {w : List Char} {at' : Attrs} {ls : List String} (h : AnaphToken ns w at' ls) {s : String} (hs : AnaphString w s) : find at' (qual ns "token") = some (.atom (.str s)) := by
  rcases hs with ⟨hu, rfl⟩ | ⟨t, ty, u, ha, rfl⟩
  · rw [h.args.2, ← (AnaphToken.plain (ns := ns) hu).args.2]
    simp [find]
  · rw [h.args.2, ← (AnaphToken.annotated (ns := ns) ha).args.2]
    have h1 : qual ns "annotation" ≠ qual ns "token" := fun h => absurd (qual_inj h) (by decide)
    have h2 : qual ns "certainty" ≠ qual ns "token" := fun h => absurd (qual_inj h) (by decide)
    simp [find, h1, h2]

/-- names of different namespaces are different -/
theorem qual_apart {a b x y : String} (hne : a ≠ b) (ha : ':' ∉ a.toList) (hb : ':' ∉ b.toList) : qual a x ≠ qual b y := by
  intro h
  have h := congrArg String.toList h
  unfold qual at h
  simp only [String.toList_append] at h
  refine hne (String.toList_inj.1 ?_)
  have e : ∀ (p q r : List Char), ':' ∉ p → (p ++ ((":" : String).toList ++ q)).takeWhile (· ≠ ':') = p := by
    intro p q _ hp
    rw [List.takeWhile_append_of_pos (fun c hc => by simp only [ne_eq, decide_eq_true_eq]; rintro rfl; exact hp hc)]
    simp
  rw [← e a.toList x.toList [] ha, h, e b.toList y.toList [] hb]

/-- **C75 (anaphoricity)**.  What the reader for anaphoricity files returns is a layer that can be merged, for the words of the file without the annotations; and it does not get into the way of documents with another namespace. -/
theorem c75_anaphoricity (name ns : String) (connected : Bool) {text : List Char} {ws : List (List Char)} (hw : Words isAsciiSpace text ws) {strs : List String} (hs : List.Forall₂ AnaphString ws strs) :
    ∃ g, anaphRead name ns connected text = .ok g ∧ Layer strs g ∧ ∀ ns', ns' ≠ ns → ':' ∉ ns'.toList → ':' ∉ ns.toList → Tidy ns' g := by
  obtain ⟨g, he, hb⟩ := anaphRead_built name ns connected text
  obtain ⟨g', he', -, hns, htok, -, hnodes, htoks, hedges, -⟩ := c42_read name ns connected hw
  obtain rfl : g' = g := Except.ok.inj (he'.symm.trans he)
  rw [splitBy_of_words hw] at hb
  have hroot : g'.root = .str (ns ++ ":root_node") := hb.root
  have hstart : ∀ m, (anaphStart name ns).HasNode m → m = .str "anaphoricity:root_node" := by
    intro m h
    have : m ∈ [NodeId.str "anaphoricity:root_node"] := h
    simpa using this
  have hlw : ∀ m k v, lastWrite m k (anaphScript ns connected ws) = some v → (∃ i : Nat, m = .int i) ∧ (k = qual ns "annotation" ∨ k = qual ns "certainty" ∨ k = qual ns "token" ∨ k = "label") := by
    intro m k v h
    obtain ⟨i, hi, hwr⟩ := lastWrite_mem h
    rcases mem_anaphScript.1 hi with rfl | ⟨w, j, -, rfl | ⟨-, rfl⟩ | rfl⟩
    · simp only [Instr.write] at hwr
      split at hwr
      · simp [find] at hwr
      · cases hwr
    · simp only [Instr.write] at hwr
      split at hwr
      · rename_i hm
        exact ⟨⟨j, hm⟩, anaphToken_keys (anaphArgs_spec ns w) ((mem_keys_iff _ _).2 ⟨v, hwr⟩)⟩
      · cases hwr
    · simp [Instr.write] at hwr
    · simp [Instr.write] at hwr
  refine ⟨g', he, ⟨hb.inv, ?_, ?_, ?_, ?_, ?_, ?_, ?_⟩, ?_⟩
  · refine hb.layeredNE anaphScript_ok (has := fun _ => True) ?_
    intro n hn
    obtain rfl := hstart n hn
    exact ⟨.str "anaphoricity", _, rfl, [.str "anaphoricity"], rfl, List.mem_cons_self⟩
  · unfold HasTokens
    rw [htok]
    refine List.forall₂_iff_get.2 ⟨by simp [hs.length_eq], fun i h1 h2 => ?_⟩
    have hi : i < ws.length := by simpa using h1
    obtain ⟨at', ls, ht, hat, -⟩ := htoks i ws[i] (List.getElem?_eq_getElem hi)
    have hst : AnaphString ws[i] strs[i] := (List.forall₂_iff_get.1 hs).2 i hi h2
    have hv := hat (qual ns "token") (qual_ne_plain (by decide))
    show g'.TokenStr _ (strs[i])
    have e : ((List.range ws.length).map (fun (i : Nat) => NodeId.int i)).get ⟨i, h1⟩ = .int i := by simp
    rw [e]
    show g'.nodeAttr _ _ = _
    rw [hns]
    exact hv.trans (anaphToken_string ht hst)
  · rw [htok]
    exact List.Nodup.map (fun a b h => by injection h with h; omega) List.nodup_range
  · rw [htok, hroot]
    intro h
    obtain ⟨_, _, h⟩ := List.mem_map.1 h
    cases h
  · rw [hroot, hnodes]
    exact .inr (.inl rfl)
  · refine noInEdges_of (fun u a h => ?_) 
    obtain ⟨-, -, ⟨i, -, h⟩, -⟩ := hedges _ _ _ h
    rw [hroot] at h
    cases h
  · intro v hv
    rw [hb.attr _ _ (by decide), anaphStart_attr _ _ _ _ (by decide)] at hv
    cases hl : lastWrite g'.root "metadata" (anaphScript ns connected ws) with
    | some w =>
      obtain ⟨⟨i, h⟩, -⟩ := hlw _ _ _ hl
      rw [hroot] at h
      cases h
    | none =>
      rw [hl, Option.none_or] at hv
      split at hv
      · exact ⟨_, (Option.some.inj hv).symm⟩
      · cases hv
  · intro ns' hne h1 h2
    refine ⟨?_, noLoops_of (fun u a h => ?_)⟩
    · intro n
      show g'.nodeAttr n (qual ns' "token") = none
      rw [hb.attr _ _ (qual_ne_plain (ns := ns') (show ':' ∉ "layers".toList by decide)), anaphStart_attr _ _ _ _ (qual_ne_plain (ns := ns') (show ':' ∉ "layers".toList by decide))]
      cases hl : lastWrite n (qual ns' "token") (anaphScript ns connected ws) with
      | none =>
        rw [Option.none_or, if_neg]
        rintro ⟨-, h⟩
        exact qual_ne_plain (show ':' ∉ "metadata".toList by decide) h
      | some w =>
        obtain ⟨-, h | h | h | h⟩ := hlw _ _ _ hl
        · exact (qual_apart hne h1 h2 h).elim
        · exact (qual_apart hne h1 h2 h).elim
        · exact (qual_apart hne h1 h2 h).elim
        · exact (qual_ne_plain (show ':' ∉ "label".toList by decide) h).elim
    · obtain ⟨-, h, ⟨i, -, h'⟩, -⟩ := hedges _ _ _ h
      rw [h] at h'
      cases h'

/-! ### conano -/

theorem earlier_noLoop : ∀ {s : List CStep} {seen : List NodeId}, Earlier seen s → (idsOf s).Nodup → (∀ i ∈ idsOf s, NodeId.str i ∉ seen) → ∀ p id ls, CStep.elem p id ls ∈ s → p ≠ .str id
  | [], _, _, _, _, _, _, _, h => by cases h
  | .word q w :: s, seen, h, hn, hd, p, id, ls, hm => by
    rcases List.mem_cons.1 hm with h' | hm
    · cases h'
    · exact earlier_noLoop h.2 hn hd p id ls hm
  | .elem q i l :: s, seen, h, hn, hd, p, id, ls, hm => by
    have hn' : (i :: idsOf s).Nodup := hn
    have hd' : ∀ j ∈ i :: idsOf s, NodeId.str j ∉ seen := hd
    rcases List.mem_cons.1 hm with h' | hm
    · obtain ⟨rfl, rfl, rfl⟩ := CStep.elem.inj h'
      intro e
      exact hd' id List.mem_cons_self (e ▸ h.1)
    · refine earlier_noLoop h.2 (List.nodup_cons.1 hn').2 ?_ p id ls hm
      intro j hj hs
      rcases List.mem_cons.1 hs with hs | hs
      · obtain rfl := NodeId.str.inj hs
        exact (List.nodup_cons.1 hn').1 hj
      · exact hd' j (List.mem_cons_of_mem _ hj) hs

theorem conanoStart_plain (name ns : String) (m : NodeId) (k : String) (h : k ≠ "layers") : (conanoStart name ns).nodeAttr m k = if m = conanoRoot ns ∧ k = "metadata" then some (.dict []) else none := by
  unfold nodeAttr nodeAttrs
  show (find (put [(conanoRoot ns, [("layers", Val.set [.str ns])])] (conanoRoot ns) [("layers", .set [.str ns]), ("metadata", .dict [])]) m).bind _ = _
  rw [find_put]
  by_cases hm : m = conanoRoot ns
  · subst hm
    by_cases h2 : k = "metadata"
    · subst h2; simp [find]
    · simp [find, Ne.symm h, Ne.symm h2, h2]
  · simp [find, Ne.symm hm, hm]

/-- **C75 (conano)**.  What the reader for Conano files returns is a layer that can be merged, for the words of the file; and it does not get into the way of documents with another namespace. -/
theorem c75_conano (name ns : String) (e : CElem) (t : CTree) (hr : e.resolve ns none = .ok t) (hd : t.Distinct ns) :
    ∃ g, conanoRead name ns false e = .ok g ∧ Layer ((e.pieces.flatMap splitWs).map String.ofList) g ∧ ∀ ns', ns' ≠ ns → ':' ∉ ns'.toList → ':' ∉ ns.toList → Tidy ns' g := by
  obtain ⟨g, he, -, hns, -, htok, hwords, hnodes, hstr, -, hedges⟩ := c43_read name ns e t hr
  obtain ⟨g', he', hb⟩ := conanoRead_built name hr
  obtain rfl : g' = g := Except.ok.inj (he'.symm.trans he)
  have hroot : g'.root = conanoRoot ns := hb.root
  obtain ⟨hd1, hd2⟩ := distinct_ids hd
  have hnl := earlier_noLoop (earlier_steps (p := conanoRoot ns) (a := [conanoRoot ns]) (by simp) t) hd1 (fun i hi h => (hd2 i hi).1 (List.mem_singleton.1 h))
  have hlw : ∀ m k v, lastWrite m k (conanoScript ns 1 (t.steps (conanoRoot ns))) = some v → (∃ j : Nat, m = conanoTokenId j) ∧ k = qual ns "token" := by
    intro m k v h
    obtain ⟨i, hi, hwr⟩ := lastWrite_mem h
    rcases (mem_conanoScript _ 1).1 hi with ⟨p, id, ls, hm, rfl | rfl⟩ | ⟨j, p, w, hj, rfl | rfl | rfl⟩
    · simp [Instr.write, find] at hwr
    · cases hwr
    · simp only [Instr.write] at hwr
      split at hwr
      · rename_i hm
        refine ⟨⟨_, hm⟩, ?_⟩
        have := (mem_keys_iff _ _).2 ⟨v, hwr⟩
        simpa [keys] using this
      · cases hwr
    · cases hwr
    · cases hwr
  refine ⟨g', he, ⟨hb.inv, ?_, ?_, ?_, ?_, ?_, ?_, ?_⟩, ?_⟩
  · refine hb.layeredNE (conanoScript_ok (steps_layers e none _ t hr)) (has := fun _ => True) ?_
    intro n hn
    obtain rfl := (conanoStart_nodes _ _ _).1 hn
    refine ⟨.str ns, [("layers", .set [.str ns]), ("metadata", .dict [])], ?_, [.str ns], rfl, List.mem_cons_self⟩
    show find (put [(conanoRoot ns, _)] (conanoRoot ns) _) _ = _
    rw [find_put, if_pos rfl]
  · unfold HasTokens
    rw [htok, ← hwords]
    refine List.forall₂_iff_get.2 ⟨by simp, fun i h1 h2 => ?_⟩
    have hi : i < (wordsOf (t.steps (conanoRoot ns))).length := by simpa using h1
    have := (hstr i (wordsOf (t.steps (conanoRoot ns)))[i].1 (wordsOf (t.steps (conanoRoot ns)))[i].2 (by rw [List.getElem?_eq_getElem hi])).1
    simpa using this
  · rw [htok]
    exact List.Nodup.map (fun a b h => conanoTokenId_inj h) List.nodup_range'
  · rw [htok, hroot]
    intro h
    obtain ⟨j, _, h⟩ := List.mem_map.1 h
    exact root_ne_token ns j h.symm
  · rw [hroot, hnodes]
    exact .inl rfl
  · refine noInEdges_of (fun u a h => ?_)
    rw [hroot] at h
    rcases hedges _ _ _ h with ⟨id, ls, hm, e, -⟩ | ⟨j, w, -, e, -⟩
    · exact (hd2 id (mem_idsOf.2 ⟨_, _, hm⟩)).1 e.symm
    · exact root_ne_token ns _ e
  · intro v hv
    rw [hb.attr _ _ (by decide), conanoStart_plain _ _ _ _ (by decide)] at hv
    cases hl : lastWrite g'.root "metadata" (conanoScript ns 1 (t.steps (conanoRoot ns))) with
    | some w =>
      obtain ⟨⟨j, h⟩, -⟩ := hlw _ _ _ hl
      exact (root_ne_token ns j (hroot.symm.trans h)).elim
    | none =>
      rw [hl, Option.none_or] at hv
      split at hv
      · exact ⟨_, (Option.some.inj hv).symm⟩
      · cases hv
  · intro ns' hne h1 h2
    refine ⟨?_, noLoops_of (fun u a h => ?_)⟩
    · intro n
      show g'.nodeAttr n (qual ns' "token") = none
      rw [hb.attr _ _ (qual_ne_plain (ns := ns') (show ':' ∉ "layers".toList by decide)), conanoStart_plain _ _ _ _ (qual_ne_plain (ns := ns') (show ':' ∉ "layers".toList by decide))]
      cases hl : lastWrite n (qual ns' "token") (conanoScript ns 1 (t.steps (conanoRoot ns))) with
      | none =>
        rw [Option.none_or, if_neg]
        rintro ⟨-, h⟩
        exact qual_ne_plain (show ':' ∉ "metadata".toList by decide) h
      | some w => exact (qual_apart hne h1 h2 (hlw _ _ _ hl).2).elim
    · rcases hedges _ _ _ h with ⟨id, ls, hm, e, -⟩ | ⟨j, w, hm, e, -⟩
      · exact hnl _ _ _ hm e
      · obtain ⟨-, pb⟩ := (earlier_steps (p := conanoRoot ns) (a := [conanoRoot ns]) (by simp) t).parents
        have hw : CStep.word u w ∈ t.steps (conanoRoot ns) := by
          have hm := List.mem_of_getElem? hm
          obtain ⟨x, hx, hxw⟩ := List.mem_filterMap.1 hm
          cases x with
          | elem _ _ _ => cases hxw
          | word p' w' => cases hxw; exact hx
        rcases pb u w hw with h | ⟨i, hi, h⟩
        · exact root_ne_token ns _ ((List.mem_singleton.1 h).symm.trans e)
        · exact (hd2 i hi).2 _ (h.symm.trans e)

/-! ### tiger -/

theorem ntsEdges_target {p : String} {toks : List NodeId} : ∀ (ts before : List TigerNt) (e : EdgeSpec), e ∈ ntsEdges p toks before ts → e.target ∈ ts.flatMap (fun t => t.edges.map refNode ++ t.secs.map refNode)
  | [], _, _, h => by unfold ntsEdges at h; cases h
  | t :: ts, before, e, h => by
    unfold ntsEdges at h
    rw [List.flatMap_cons, List.mem_append]
    rcases List.mem_append.1 h with h | h
    · left
      have := targets_nt p toks before t
      have h2 : (e.target, false) ∈ (ntEdges p toks before t).map (fun e => (e.target, false)) := List.mem_map.2 ⟨e, h, rfl⟩
      rw [this, List.mem_map] at h2
      obtain ⟨x, hx, he⟩ := h2
      rw [← List.map_append]
      exact List.mem_map.2 ⟨x, hx, (Prod.mk.inj he).1⟩
    · exact .inr (ntsEdges_target ts _ e h)

theorem fileEdges_target {p : String} {s : TigerS} {e : EdgeSpec} (h : e ∈ fileEdges p s) : e.target ∈ s.refs := by
  unfold fileEdges at h
  unfold TigerS.refs
  rcases List.mem_append.1 h with h | h
  · refine List.mem_append_left _ ?_
    obtain ⟨t, ht, h⟩ := List.mem_flatMap.1 h
    refine List.mem_flatMap.2 ⟨t, ht, ?_⟩
    obtain ⟨x, hx, rfl⟩ := List.mem_map.1 h
    exact List.mem_map.2 ⟨x, hx, rfl⟩
  · exact List.mem_append_right _ (ntsEdges_target _ _ _ h)

theorem sentEdges_target {p : String} {s : TigerS} (hv : s.Valid) {e : EdgeSpec} (h : e ∈ sentEdges p s) : e.target ∈ s.declared := by
  unfold sentEdges at h
  rcases List.mem_append.1 h with h | h
  · exact hv.refs _ (fileEdges_target h)
  · obtain ⟨n, hn, rfl⟩ := List.mem_map.1 h
    exact (List.mem_filter.1 hn).1

theorem docEdges_target {ns : String} {ss : List TigerS} (hd : ValidDoc ns ss) {e : EdgeSpec} (h : e ∈ docEdges ns ss) : e.target ≠ docRoot ns := by
  unfold docEdges at h
  obtain ⟨s, hs, h⟩ := List.mem_flatMap.1 h
  have hdecl : ∀ m ∈ s.declared, m ≠ docRoot ns := fun m hm e => hd.root (e ▸ List.mem_flatMap.2 ⟨s, hs, hm⟩)
  rcases List.mem_append.1 h with h | h
  · exact hdecl _ (sentEdges_target (hd.valid s hs) h)
  · obtain rfl := List.mem_singleton.1 h
    rcases topNode_cases (p := "tiger") (hd.valid s hs) with ⟨-, h⟩ | ⟨-, -, h⟩
    · show topNode "tiger" s ≠ _
      rw [h]
      exact (docRoot_ne_vroot ns "tiger").symm
    · exact hdecl _ h

theorem tigerTokens_nodup {ns : String} : ∀ {ss : List TigerS}, (ss.flatMap TigerS.declared).Nodup → (ss.flatMap sentToks).Nodup ∧ ∀ m ∈ ss.flatMap sentToks, m ∈ ss.flatMap TigerS.declared
  | [], _ => ⟨List.nodup_nil, fun _ h => h⟩
  | s :: ss, h => by
    rw [List.flatMap_cons, List.nodup_append] at h
    obtain ⟨h1, h2, h3⟩ := h
    obtain ⟨i1, i2⟩ := tigerTokens_nodup (ns := ns) h2
    have hp : List.Perm (sentToks s) s.toks := pySorted_perm _
    have hm : ∀ m ∈ sentToks s, m ∈ s.declared := fun m hm => List.mem_append_left _ (hp.mem_iff.1 hm)
    have hn : s.toks.Nodup := (List.nodup_append.1 h1).1
    refine ⟨?_, ?_⟩
    · rw [List.flatMap_cons, List.nodup_append]
      exact ⟨hp.nodup_iff.2 hn, i1, fun a ha b hb => h3 a (hm a ha) b (i2 b hb)⟩
    · intro m h
      rw [List.flatMap_cons] at h ⊢
      rcases List.mem_append.1 h with h | h
      · exact List.mem_append_left _ (hm m h)
      · exact List.mem_append_right _ (i2 m h)

/-- **C75 (tiger)**.  What the reader for TigerXML files returns is a layer that can be merged, for the words of its terminals – if the namespace is "tiger", the default. -/
theorem c75_tiger_partial (name : String) (ss : List TigerS) (hd : ValidDoc "tiger" ss) :
    ∃ g strs, tigerRead name "tiger" ss = .ok g ∧ List.Forall₂ (TigerWord ss) g.tokens strs ∧ Layer strs g ∧
      ∀ ns', ns' ≠ "tiger" → ':' ∉ ns'.toList → (∀ n, g.nodeAttr n (ns' ++ (":" ++ "token")) = none) ∧ ((∀ e ∈ docEdges "tiger" ss, e.source ≠ e.target) → Tidy ns' g) := by
  obtain ⟨g, he, d, -⟩ := tigerRead_graph (name := name) hd
  obtain ⟨htn, htd⟩ := tigerTokens_nodup (ns := "tiger") hd.unique
  have hword : ∀ n ∈ g.tokens, ∃ w, TigerWord ss n w ∧ g.TokenStr n w := by
    intro n hn
    rw [d.tokens] at hn
    obtain ⟨s, hs, hn⟩ := List.mem_flatMap.1 hn
    have hp : List.Perm (sentToks s) s.toks := pySorted_perm _
    obtain ⟨t, ht, rfl⟩ := List.mem_map.1 (hp.mem_iff.1 hn)
    obtain ⟨w, hw, -, hg⟩ := (c55_terminal_attributes name "tiger" ss hd g he s hs t ht).2.1
    refine ⟨w, ⟨s, hs, t, ht, rfl, hw⟩, ?_⟩
    show g.nodeAttr t.node (qual g.ns "token") = _
    rw [d.ns]
    exact hg
  obtain ⟨strs, h1, h2⟩ : ∃ strs, List.Forall₂ (TigerWord ss) g.tokens strs ∧ g.HasTokens strs := by
    unfold HasTokens
    revert hword
    generalize g.tokens = ts
    intro h
    induction ts with
    | nil => exact ⟨[], .nil, .nil⟩
    | cons n ts ih =>
      obtain ⟨w, hw1, hw2⟩ := h n (by simp)
      obtain ⟨ws, h1, h2⟩ := ih (fun x hx => h x (List.mem_cons_of_mem _ hx))
      exact ⟨w :: ws, .cons hw1 h1, .cons hw2 h2⟩
  have hroot : docRoot "tiger" ∉ ss.flatMap TigerS.declared := hd.root
  refine ⟨g, strs, he, h1, ⟨d.inv, ?_, h2, ?_, ?_, ?_, ?_, ?_⟩, ?_⟩
  · refine layeredNE_of d.layered (fun n hn => ?_)
    have hdecl : ∀ s ∈ ss, ∀ m ∈ s.declared, ∃ l, g.NodeLayer m l := by
      intro s hs m hm
      have hne : nodeLayers "tiger" s m ≠ [] := by
        unfold nodeLayers rootLayers
        split <;> [simp; skip]
        split <;> [simp; skip]
        split <;> simp
      obtain ⟨l, hl⟩ := List.exists_mem_of_ne_nil _ hne
      exact ⟨.str l, (d.layer s hs m hm _).2 (List.mem_map_of_mem hl)⟩
    rcases (d.nodes n).1 hn with rfl | ⟨s, hs, h | rfl⟩
    · exact ⟨_, (d.rootLayer _).2 rfl⟩
    · exact hdecl s hs n h
    · rcases topNode_cases (p := "tiger") (hd.valid s hs) with ⟨ht, h⟩ | ⟨-, -, h⟩
      · rw [h]
        exact ⟨.str "tiger", (d.vroot ⟨s, hs, ht⟩ _).2 (by simp [vrootLayers])⟩
      · exact hdecl s hs _ h
  · rw [d.tokens]; exact htn
  · rw [d.tokens, d.root]
    exact fun h => hroot (htd _ h)
  · rw [d.root, d.nodes]
    exact .inl rfl
  · refine noInEdges_of (fun u a h => ?_)
    rw [d.root] at h
    obtain ⟨e, he, -, ht, -⟩ := d.edges.sound _ _ _ h
    exact docEdges_target hd he ht
  · intro v hv
    rw [d.root, d.other _ hroot _ (by decide), if_pos ⟨rfl, rfl⟩] at hv
    exact ⟨_, (Option.some.inj hv).symm⟩
  · intro ns' hne h1
    refine (fun x y => ⟨x, fun hl => ⟨x, y hl⟩⟩) ?_ (fun hl => noLoops_of (fun u a h => ?_))
    · intro n
      show g.nodeAttr n (qual ns' "token") = none
      by_contra hc
      obtain ⟨v, hv⟩ := Option.ne_none_iff_exists'.1 hc
      have hbad : ¬ (qual ns' "token" = "layers" ∨ qual ns' "token" = "label" ∨ qual ns' "token" = "tokens" ∨ qual ns' "token" = "metadata" ∨ ∃ k', qual ns' "token" = qual "tiger" k') := by
        rintro (h | h | h | h | ⟨k', h⟩)
        · exact qual_ne_plain (show ':' ∉ "layers".toList by decide) h
        · exact qual_ne_plain (show ':' ∉ "label".toList by decide) h
        · exact qual_ne_plain (show ':' ∉ "tokens".toList by decide) h
        · exact qual_ne_plain (show ':' ∉ "metadata".toList by decide) h
        · exact qual_apart hne h1 (show ':' ∉ "tiger".toList by decide) h
      by_cases hn : n ∈ ss.flatMap TigerS.declared
      · obtain ⟨s, hs, hn⟩ := List.mem_flatMap.1 hn
        rcases List.mem_append.1 hn with hn | hn
        · obtain ⟨t, ht, rfl⟩ := List.mem_map.1 hn
          rcases (c55_terminal_attributes name "tiger" ss hd g he s hs t ht).2.2 _ _ hv with h | h | h | ⟨h, -⟩ | ⟨k', -, h⟩
          · exact hbad (.inl h)
          · exact hbad (.inr (.inl h))
          · exact hbad (.inr (.inr (.inr (.inr ⟨"token", h⟩))))
          · exact hbad (.inr (.inr (.inl h)))
          · exact hbad (.inr (.inr (.inr (.inr ⟨k', h⟩))))
        · obtain ⟨t, ht, rfl⟩ := List.mem_map.1 hn
          rcases (c55_nonterminal_attributes name "tiger" ss hd g he s hs t ht).2.2.2 _ _ hv with h | h | ⟨h, -⟩ | ⟨k', -, h⟩
          · exact hbad (.inl h)
          · exact hbad (.inr (.inl h))
          · exact hbad (.inr (.inr (.inl h)))
          · exact hbad (.inr (.inr (.inr (.inr ⟨k', h⟩))))
      · rw [d.other _ hn _ (qual_ne_plain (show ':' ∉ "layers".toList by decide)), if_neg (fun h => hbad (.inr (.inr (.inr (.inl h.2)))))] at hv
        cases hv
    · obtain ⟨e, he, hs, ht, -⟩ := d.edges.sound _ _ _ h
      exact hl e he (hs.trans ht.symm)

/-! ### rst -/

theorem zip_tail_ne : ∀ {r : NodeId} {ts : List NodeId}, (r :: ts).Nodup → ∀ p ∈ (r :: ts).zip ts, p.1 ≠ p.2 ∧ p.2 ∈ ts
  | _, [], _, p, h => by simp at h
  | r, t :: ts, hn, p, h => by
    rw [List.zip_cons_cons] at h
    rcases List.mem_cons.1 h with rfl | h
    · exact ⟨fun e => (List.nodup_cons.1 hn).1 ((show r = t from e) ▸ List.mem_cons_self), List.mem_cons_self⟩
    · obtain ⟨a, b⟩ := zip_tail_ne (List.nodup_cons.1 hn).2 p h
      exact ⟨a, List.mem_cons_of_mem _ b⟩

/-- **C75 (rst)**.  What the reader for RST files returns (with tokens) is a layer that can be merged, for the words of its segments; and it does not get into the way of documents with another namespace. -/
theorem c75_rst (name ns : String) (precedence : Bool) (doc : Rs3Doc) (h : doc.ReadOk) (g : DG) (edus : List NodeId) (hr : rstRead name ns true precedence doc = .ok (g, edus)) :
    Layer (((Rs3Doc.segments doc).flatMap (fun x => splitWs x.text)).map String.ofList) g ∧
    ∀ ns', ns' ≠ ns → ':' ∉ ns'.toList → ':' ∉ ns.toList → (∀ n, g.nodeAttr n (ns' ++ (":" ++ "token")) = none) ∧ ((∀ x ∈ doc.elems, x.parent ≠ some x.id) → Tidy ns' g) := by
  obtain ⟨htok, hnd, hwords, hstr, -⟩ := c57_tokens name ns precedence doc h g edus hr
  obtain ⟨s, -⟩ := rstRead_content h hr
  have hns : g.ns = ns := s.ns.trans (by cases precedence <;> rfl)
  obtain ⟨hr1, hr2, hr3⟩ := c57_root name ns true precedence doc h g edus hr
  have hnodes := c57_nodes name ns true precedence doc h g edus hr
  have hedges := c57_edges name ns true precedence doc h g edus hr
  have hroot : (∃ x ∈ doc.elems, x.isRoot = true ∧ g.root = rstNode ns x) ∨ (g.root = docRoot ns ∧ ∀ x ∈ doc.elems, x.isRoot = false) := by
    by_cases hx : ∃ x ∈ doc.elems, x.isRoot = true
    · obtain ⟨x, hx, hxr⟩ := hx
      exact .inl ⟨x, hx, hxr, hr1 x hx hxr⟩
    · have : ∀ x ∈ doc.elems, x.isRoot = false := fun x hx' => by
        by_contra hc
        exact hx ⟨x, hx', by simpa using hc⟩
      exact .inr ⟨hr2 this, this⟩
  have hroottok : ∀ t ∈ Rs3Doc.tokens doc, t.node ns ≠ g.root := by
    intro t _ e
    rcases hroot with ⟨x, hx, -, hg⟩ | ⟨hg, -⟩
    · exact tok_node_ne (h.colon x hx) (e.trans hg)
    · exact tok_node_root (e.trans hg)
  have hrootdoc : g.root = Rs3Doc.rootNode ns doc := by
    rw [s.root]
    exact rootAfter_eq ns h
  have hrootnot : g.root ∉ g.tokens := by
    rw [htok]
    intro hm
    obtain ⟨t, ht, e⟩ := List.mem_map.1 hm
    exact hroottok t ht e
  have htarget : ∀ e ∈ rstDocEdges ns true precedence doc, (∃ x ∈ doc.elems, ∃ p, x.parent = some p ∧ e.source = rstId ns p ∧ e.target = rstNode ns x) ∨ (e.target ∈ g.tokens ∧ e.source ≠ e.target) := by
    intro e he
    unfold rstDocEdges at he
    rcases List.mem_append.1 he with he | he
    · rcases List.mem_append.1 he with he | he
      · left
        unfold elemEdges at he
        obtain ⟨x, hx, he⟩ := List.mem_filterMap.1 he
        obtain ⟨p, hp, rfl⟩ := Option.map_eq_some_iff.1 he
        exact ⟨x, hx, p, hp, rfl, rfl⟩
      · right
        rw [if_pos rfl] at he
        obtain ⟨t, ht, rfl⟩ := List.mem_map.1 he
        refine ⟨by rw [htok]; exact List.mem_map_of_mem ht, fun e => ?_⟩
        have : t.seg ∈ doc.elems := by
          obtain ⟨x, hx, ht⟩ := List.mem_flatMap.1 ht
          obtain ⟨w, -, rfl⟩ := List.mem_map.1 ht
          exact (List.mem_filter.1 hx).1
        exact tok_node_ne (h.colon _ this) e.symm
    · right
      split at he
      · unfold precEdges at he
        rw [← htok, ← hrootdoc] at he
        obtain ⟨p, hp, rfl⟩ := List.mem_map.1 he
        obtain ⟨a, b⟩ := zip_tail_ne (List.nodup_cons.2 ⟨hrootnot, hnd⟩) p hp
        exact ⟨b, a⟩
      · cases he
  refine ⟨⟨s.inv, ?_, ?_, hnd, hrootnot, hr3, ?_, ?_⟩, ?_⟩
  · refine layeredNE_of s.layered (fun n hn => ?_)
    rcases (hnodes n).1 hn with ⟨x, hx, rfl⟩ | ⟨-, t, ht, rfl⟩ | ⟨rfl, hx⟩
    · exact ⟨_, (c57_layers name ns true precedence doc h g edus hr x hx _).2 (.inl rfl)⟩
    · exact ⟨_, ((hstr t ht).2.2 _).2 (.inl rfl)⟩
    · refine ⟨.str ns, (s.layer _ _).2 (.inl ?_)⟩
      show (docView ns doc).layer (docRoot ns) _
      simp only [docView, evView]
      have hd : declOf ns (rstEvents doc) (docRoot ns) = none := by
        unfold declOf
        rw [List.find?_eq_none]
        intro x hx' e
        rw [rstEvents_declared] at hx'
        refine h.noRoot x (mem_rstOrder.1 hx') ?_
        have e : rstId ns x.id = docRoot ns := of_decide_eq_true e
        unfold rstId docRoot at e
        have := congrArg String.toList (qual_inj (NodeId.str.inj e))
        rw [String.toList_ofList] at this
        rw [this]
        decide
      rw [hd]
      exact ⟨trivial, .inr (by rw [← hr2 hx, hrootdoc]; exact (rootAfter_eq ns h).symm)⟩
  · unfold HasTokens
    rw [htok, ← hwords, List.map_map]
    refine hasTokens_map (fun t ht => ?_)
    show g.nodeAttr _ (qual g.ns "token") = _
    rw [hns]
    exact (hstr t ht).1
  · refine noInEdges_of (fun u a he => ?_)
    obtain ⟨e, hm, -, ht, -⟩ := hedges.sound _ _ _ he
    rcases htarget e hm with ⟨x, hx, p, hp, -, he⟩ | ⟨he, -⟩
    · rcases hroot with ⟨y, hy, hyr, hg⟩ | ⟨hg, -⟩
      · have : x.id = y.id := rstId_inj (he.symm.trans (ht.trans hg))
        obtain rfl := List.inj_on_of_nodup_map h.unique hx hy this
        simp [Rs3Xml.isRoot, hp] at hyr
      · have e : rstId ns x.id = docRoot ns := he.symm.trans (ht.trans hg)
        refine h.noRoot x hx ?_
        unfold rstId docRoot at e
        have := congrArg String.toList (qual_inj (NodeId.str.inj e))
        rw [String.toList_ofList] at this
        rw [this]
        decide
    · exact hrootnot (ht ▸ he)
  · intro v hv
    rw [s.attr _ _ (by decide)] at hv
    simp only [fullView, if_true, tokView] at hv
    have q : ∀ s, "metadata" ≠ qual ns s := fun s h => qual_ne_plain (by decide) h.symm
    split at hv
    · simp [tokAttrs, find, Ne.symm (q _)] at hv
    · simp only [docView, evView, if_neg (q _), if_true] at hv
      split at hv
      · exact ⟨_, (Option.some.inj hv).symm⟩
      · cases hv
  · intro ns' hne h1 h2
    refine (fun x y => ⟨x, fun hl => ⟨x, y hl⟩⟩) ?_ (fun hl => noLoops_of (fun u a he => ?_))
    · intro n
      show g.nodeAttr n (qual ns' "token") = none
      have q : ∀ s, qual ns' "token" ≠ qual ns s := fun s => qual_apart hne h1 h2
      have ql : qual ns' "token" ≠ "label" := qual_ne_plain (show ':' ∉ "label".toList by decide)
      have qm : qual ns' "token" ≠ "metadata" := qual_ne_plain (show ':' ∉ "metadata".toList by decide)
      rw [s.attr _ _ (qual_ne_plain (ns := ns') (show ':' ∉ "layers".toList by decide))]
      simp only [fullView, if_true, tokView]
      split
      · simp [tokAttrs, find, Ne.symm (q _), Ne.symm ql]
      · simp only [docView, evView, if_neg (q _), if_neg qm]
        split
        · unfold elemAttrs
          split
          · simp [find, Ne.symm (q _), Ne.symm ql]
          · rw [find_groupAttrs, if_neg (q _), if_neg ql]
        · rfl
    · obtain ⟨e, hm, hs, ht, -⟩ := hedges.sound _ _ _ he
      rcases htarget e hm with ⟨x, hx, p, hp, he1, he2⟩ | ⟨-, he⟩
      · refine hl x hx (hp.trans ?_)
        congr 1
        exact rstId_inj (he1.symm.trans ((hs.trans ht.symm).trans he2))
      · exact he (hs.trans ht.symm)

/-! ### all layers of a text -/

theorem colon_qual (a b : String) : ':' ∈ (qual a b).toList := by
  unfold qual
  simp [String.toList_append]

theorem rstRoot_qual (ns : String) (doc : Rs3Doc) : ∃ y, Rs3Doc.rootNode ns doc = .str (qual ns y) := by
  unfold Rs3Doc.rootNode
  split
  · exact ⟨_, rfl⟩
  · exact ⟨_, rfl⟩

theorem strOf_colon : ∀ (a b : String), ':' ∉ a.toList → ':' ∉ b.toList → a ≠ b → ∀ x y, NodeId.str (qual a x) ≠ .str (qual b y) := fun _ _ ha hb hne _ _ h => qual_apart hne ha hb (NodeId.str.inj h)

theorem conanoToken_qual (j : Nat) : conanoTokenId j = .str (qual "token" (String.ofList (decimal j))) := by
  unfold conanoTokenId qual
  congr 1
  apply String.toList_inj.1
  simp [String.toList_append, String.toList_ofList]

theorem conanoRoot_qual (ns : String) : conanoRoot ns = .str (qual ns "root_node") := by
  unfold conanoRoot qual
  congr 1

theorem rst_words (doc : Rs3Doc) : (Rs3Doc.tokens doc).map RstTok.word = (Rs3Doc.segments doc).flatMap (fun x => splitWs x.text) := by
  show ((Rs3Doc.segments doc).flatMap segTokens).map _ = _
  rw [List.map_flatMap]
  congr 1
  funext x
  unfold segTokens
  rw [List.map_map]
  exact List.zipIdx_map_fst ..

/-- **C75 (all layers of a text)**.  If the TigerXML, the RST, the Conano and the anaphoricity file of a text contain the same words, what the four readers return (with their default namespaces) can be merged into one document, which then completely contains all
four annotations – provided that the IDs in the files do not get into each other's way: no colon in the IDs of the TigerXML file (XML does not allow them), no Conano element with the ID of a node of the TigerXML file or the root of another file, no RST element that is its own parent. -/
theorem c75_all_layers_partial {strs : List String} (hne : strs ≠ [])
    (name1 : String) (ss : List TigerS) (hd : ValidDoc "tiger" ss) (h1 : List.Forall₂ (TigerWord ss) (ss.flatMap (fun s => naturalSorted s.toks)) strs)
    (name2 : String) (precedence : Bool) (doc : Rs3Doc) (hr : doc.ReadOk) (h2 : ((Rs3Doc.segments doc).flatMap (fun x => splitWs x.text)).map String.ofList = strs) (h2' : precedence = true → 2 ≤ strs.length)
    (name3 : String) (e : CElem) (t : CTree) (he : e.resolve "conano" none = .ok t) (hdis : t.Distinct "conano") (h3 : (e.pieces.flatMap splitWs).map String.ofList = strs)
    (name4 : String) (connected : Bool) {text : List Char} {ws : List (List Char)} (hw : Words isAsciiSpace text ws) (h4 : List.Forall₂ AnaphString ws strs)
    (k1 : ∀ x, NodeId.str x ∈ ss.flatMap TigerS.declared → ':' ∉ x.toList)
    (k2 : ∀ p id ls, CStep.elem p id ls ∈ t.steps (conanoRoot "conano") → .str id ∉ ss.flatMap TigerS.declared ∧ id ≠ "tiger:root_node" ∧ id ≠ "anaphoricity:root_node" ∧ .str id ≠ Rs3Doc.rootNode "rst" doc)
    (k3 : ∀ x ∈ doc.elems, x.parent ≠ some x.id) :
    ∃ g1 g2 edus g3 g4, tigerRead name1 "tiger" ss = .ok g1 ∧ rstRead name2 "rst" true precedence doc = .ok (g2, edus) ∧ conanoRead name3 "conano" false e = .ok g3 ∧ anaphRead name4 "anaphoricity" connected text = .ok g4 ∧
      ∀ s2 s3 s4 : Sched, s2.Valid (g2.tokens.zip g1.tokens) → s3.Valid (g3.tokens.zip g1.tokens) → s4.Valid (g4.tokens.zip g1.tokens) →
        ∃ g', g1.mergeAll [(g2, s2), (g3, s3), (g4, s4)] = (g', none) ∧ g'.Document strs ∧ g'.tokens = g1.tokens ∧
          KeptIn [g2, g3, g4] g1 g' ∧ LayerIn [g3, g4] g2 g' ∧ LayerIn [g4] g3 g' ∧ LayerIn [] g4 g' ∧ OnlyFrom [g2, g3, g4] g1 g' := by
  -- tiger
  obtain ⟨g1, strs1, e1, w1, l1, -⟩ := c75_tiger_partial name1 ss hd
  obtain ⟨g1', e1', d1, -⟩ := tigerRead_graph (name := name1) hd
  obtain rfl : g1' = g1 := Except.ok.inj (e1'.symm.trans e1)
  have htok1 : g1'.tokens = ss.flatMap (fun s => naturalSorted s.toks) := d1.tokens
  obtain rfl : strs1 = strs := by
    rw [htok1] at w1
    have huniq : ∀ n a b, TigerWord ss n a → TigerWord ss n b → a = b := by
      rintro n a b ⟨x, hx, u, hu, rfl, ha⟩ ⟨y, hy, v, hv, hv', hb⟩
      obtain ⟨wu, fu, -, gu⟩ := (c55_terminal_attributes name1 "tiger" ss hd g1' e1 x hx u hu).2.1
      obtain ⟨wv, fv, -, gv⟩ := (c55_terminal_attributes name1 "tiger" ss hd g1' e1 y hy v hv).2.1
      rw [hv'] at gv
      have := gu.symm.trans gv
      have hwv : wu = wv := by injection this with h; injection h with h; injection h
      rw [ha] at fu; rw [hb] at fv
      rw [Option.some.inj fu, Option.some.inj fv, hwv]
    exact List.right_unique_forall₂' huniq w1 h1
  -- rst
  obtain ⟨g2, e2⟩ := c57_reads name2 "rst" true precedence doc hr (by
    intro _ hp
    have := congrArg List.length h2
    rw [← rst_words doc, List.length_map, List.length_map] at this
    rw [this]
    exact h2' hp)
  obtain ⟨l2, t2⟩ := c75_rst name2 "rst" precedence doc hr g2 _ e2
  have n2 := c57_nodes name2 "rst" true precedence doc hr g2 _ e2
  have r2 : g2.root = Rs3Doc.rootNode "rst" doc := by
    obtain ⟨s, -⟩ := rstRead_content hr e2
    rw [s.root]
    exact rootAfter_eq "rst" hr
  rw [h2] at l2
  -- conano
  obtain ⟨g3, e3, l3, t3⟩ := c75_conano name3 "conano" e t he hdis
  obtain ⟨g3', e3', hb3⟩ := conanoRead_built name3 he
  obtain ⟨g3'', e3'', -, -, -, k3tok, -, n3, -⟩ := c43_read name3 "conano" e t he
  obtain rfl : g3' = g3 := Except.ok.inj (e3'.symm.trans e3)
  obtain rfl : g3'' = g3' := Except.ok.inj (e3''.symm.trans e3)
  have r3 : g3''.root = conanoRoot "conano" := hb3.root
  rw [h3] at l3
  -- anaphoricity
  obtain ⟨g4, e4, l4, t4⟩ := c75_anaphoricity name4 "anaphoricity" connected hw h4
  obtain ⟨g4', e4', hb4⟩ := anaphRead_built name4 "anaphoricity" connected text
  obtain ⟨g4'', e4'', -, -, -, -, n4, -⟩ := c42_read name4 "anaphoricity" connected hw
  obtain rfl : g4' = g4 := Except.ok.inj (e4'.symm.trans e4)
  obtain rfl : g4'' = g4' := Except.ok.inj (e4''.symm.trans e4)
  have r4 : g4''.root = .str "anaphoricity:root_node" := hb4.root
  have c : ':' ∉ "tiger".toList ∧ ':' ∉ "rst".toList ∧ ':' ∉ "conano".toList ∧ ':' ∉ "anaphoricity".toList ∧ ':' ∉ "token".toList := by decide
  -- the nodes of the TigerXML file
  have q1 : docRoot "tiger" = .str "tiger:root_node" := by decide
  have hdecl : ∀ m ∈ ss.flatMap TigerS.declared, ∀ a b, m ≠ .str (qual a b) := by
    rintro m hm a b rfl
    exact k1 _ hm (colon_qual a b)
  have hdecl' : ∀ m ∈ ss.flatMap TigerS.declared, ∃ x, m = .str x := by
    intro m hm
    obtain ⟨s, -, hm⟩ := List.mem_flatMap.1 hm
    rcases List.mem_append.1 hm with hm | hm <;> obtain ⟨y, -, rfl⟩ := List.mem_map.1 hm <;> exact ⟨_, rfl⟩
  have htoks : ∀ m ∈ g1'.tokens, m ∈ ss.flatMap TigerS.declared := by
    rw [d1.tokens]
    exact (tigerTokens_nodup (ns := "tiger") hd.unique).2
  have n1 : ∀ a b, a ≠ "tiger" → ':' ∉ a.toList → ¬ g1'.HasNode (.str (qual a b)) := by
    intro a b hne ha h
    rcases (d1.nodes _).1 h with h | ⟨s, hs, h | h⟩
    · exact strOf_colon _ _ ha c.1 hne _ _ h
    · exact hdecl _ (List.mem_flatMap.2 ⟨s, hs, h⟩) a b rfl
    · rcases topNode_cases (p := "tiger") (hd.valid s hs) with ⟨-, ht⟩ | ⟨-, -, ht⟩
      · rw [ht] at h
        exact strOf_colon _ _ ha c.1 hne _ _ h
      · rw [← h] at ht
        exact hdecl _ (List.mem_flatMap.2 ⟨s, hs, ht⟩) a b rfl
  obtain ⟨y, hy⟩ := rstRoot_qual "rst" doc
  -- the nodes of the RST file
  have m2 : ∀ m, g2.HasNode m → ∃ b, m = .str (qual "rst" b) := by
    intro m hm
    rcases (n2 m).1 hm with ⟨x, -, rfl⟩ | ⟨-, u, -, rfl⟩ | ⟨rfl, -⟩
    · exact ⟨_, rfl⟩
    · exact ⟨_, rfl⟩
    · exact ⟨_, rfl⟩
  -- the nodes of the Conano file
  have m3 : ∀ m, g3''.HasNode m → (∃ a b, m = .str (qual a b) ∧ (a = "conano" ∨ a = "token")) ∨ ∃ p id ls, CStep.elem p id ls ∈ t.steps (conanoRoot "conano") ∧ m = .str id := by
    intro m hm
    rcases (n3 m).1 hm with rfl | hm | hm
    · exact .inl ⟨_, _, conanoRoot_qual _, .inl rfl⟩
    · rw [k3tok] at hm
      obtain ⟨j, -, rfl⟩ := List.mem_map.1 hm
      exact .inl ⟨_, _, conanoToken_qual j, .inr rfl⟩
    · exact .inr hm
  -- the nodes of the anaphoricity file
  have m4 : ∀ m, g4''.HasNode m → m = .str (qual "anaphoricity" "root_node") ∨ ∃ i : Nat, m = .int i := by
    intro m hm
    rcases (n4 m).1 hm with rfl | rfl | ⟨i, -, rfl⟩
    · exact .inl (by decide)
    · exact .inl (by decide)
    · exact .inr ⟨i, rfl⟩
  have qa : NodeId.str "anaphoricity:root_node" = .str (qual "anaphoricity" "root_node") := by decide
  have qt : docRoot "tiger" = .str (qual "tiger" "root_node") := rfl
  have a2 : Apart g1'.tokens g1'.root g1'.ns g2 := by
    obtain ⟨x1, x2⟩ := (t2 "tiger" (by decide) c.1 c.2.1).2 k3
    refine ⟨fun m hm h => ?_, fun h => ?_, by rw [d1.ns]; exact x1, .inr x2⟩
    · obtain ⟨b, rfl⟩ := m2 m h
      exact hdecl _ (htoks _ hm) _ _ rfl
    · obtain ⟨b, h⟩ := m2 _ h
      rw [d1.root] at h
      exact strOf_colon _ _ c.1 c.2.1 (by decide) _ _ h
  have a3 : Apart g1'.tokens g1'.root g1'.ns g3'' := by
    obtain ⟨x1, x2⟩ := t3 "tiger" (by decide) c.1 c.2.2.1
    refine ⟨fun m hm h => ?_, fun h => ?_, by rw [d1.ns]; exact x1, .inr x2⟩
    · rcases m3 m h with ⟨a, b, rfl, -⟩ | ⟨p, id, ls, hs, rfl⟩
      · exact hdecl _ (htoks _ hm) _ _ rfl
      · exact (k2 p id ls hs).1 (htoks _ hm)
    · rw [d1.root] at h
      rcases m3 _ h with ⟨a, b, h, ha | ha⟩ | ⟨p, id, ls, hs, h⟩
      · exact strOf_colon _ _ c.1 (ha ▸ c.2.2.1) (ha ▸ by decide) _ _ h
      · exact strOf_colon _ _ c.1 (ha ▸ c.2.2.2.2) (ha ▸ by decide) _ _ h
      · exact (k2 p id ls hs).2.1 (NodeId.str.inj (h.symm.trans q1))
  have a4 : Apart g1'.tokens g1'.root g1'.ns g4'' := by
    obtain ⟨x1, x2⟩ := t4 "tiger" (by decide) c.1 c.2.2.2.1
    refine ⟨fun m hm h => ?_, fun h => ?_, by rw [d1.ns]; exact x1, .inr x2⟩
    · rcases m4 m h with rfl | ⟨i, rfl⟩
      · exact hdecl _ (htoks _ hm) _ _ rfl
      · obtain ⟨x, hx⟩ := hdecl' _ (htoks _ hm)
        cases hx
    · rw [d1.root] at h
      rcases m4 _ h with h | ⟨i, h⟩
      · exact strOf_colon _ _ c.1 c.2.2.2.1 (by decide) _ _ h
      · cases h
  refine ⟨g1', g2, _, g3'', g4'', e1, e2, e3, e4, fun s2 s3 s4 v2 v3 v4 => ?_⟩
  have hmeta : ∃ d, g1'.nodeAttr g1'.root "metadata" = some (.dict d) := ⟨[], by rw [d1.root, d1.other _ hd.root _ (by decide), if_pos ⟨rfl, rfl⟩]⟩
  obtain ⟨g', f1, f2, f3, -, -, f6, f7, f8, -⟩ := mergeAll_spec hne [(g2, s2), (g3'', s3), (g4'', s4)] ⟨l1.sound, d1.layered, l1.strings, l1.distinct, l1.root, hmeta⟩
    (by
      intro p hp
      simp only [List.mem_cons, List.not_mem_nil, or_false] at hp
      rcases hp with rfl | rfl | rfl
      · exact ⟨l2, a2, by show ¬ g1'.HasNode g2.root; rw [r2, hy]; exact n1 _ _ (by decide) c.2.1, v2⟩
      · exact ⟨l3, a3, by show ¬ g1'.HasNode g3''.root; rw [r3, conanoRoot_qual]; exact n1 _ _ (by decide) c.2.2.1, v3⟩
      · exact ⟨l4, a4, by show ¬ g1'.HasNode g4''.root; rw [r4, qa]; exact n1 _ _ (by decide) c.2.2.2.1, v4⟩)
    (by
      have z23 : ¬ g2.HasNode g3''.root := fun h => by
        obtain ⟨b, h⟩ := m2 _ h
        rw [r3, conanoRoot_qual] at h
        exact strOf_colon _ _ c.2.2.1 c.2.1 (by decide) _ _ h
      have z24 : ¬ g2.HasNode g4''.root := fun h => by
        obtain ⟨b, h⟩ := m2 _ h
        rw [r4, qa] at h
        exact strOf_colon _ _ c.2.2.2.1 c.2.1 (by decide) _ _ h
      have z32 : ¬ g3''.HasNode g2.root := fun h => by
        rw [r2] at h
        rcases m3 _ h with ⟨a, b, h, ha | ha⟩ | ⟨p, id, ls, hs, h⟩
        · exact strOf_colon _ _ c.2.1 (ha ▸ c.2.2.1) (ha ▸ by decide) _ _ (hy.symm.trans h)
        · exact strOf_colon _ _ c.2.1 (ha ▸ c.2.2.2.2) (ha ▸ by decide) _ _ (hy.symm.trans h)
        · exact (k2 p id ls hs).2.2.2 h.symm
      have z34 : ¬ g3''.HasNode g4''.root := fun h => by
        rw [r4] at h
        rcases m3 _ h with ⟨a, b, h, ha | ha⟩ | ⟨p, id, ls, hs, h⟩
        · exact strOf_colon _ _ c.2.2.2.1 (ha ▸ c.2.2.1) (ha ▸ by decide) _ _ (qa.symm.trans h)
        · exact strOf_colon _ _ c.2.2.2.1 (ha ▸ c.2.2.2.2) (ha ▸ by decide) _ _ (qa.symm.trans h)
        · exact (k2 p id ls hs).2.2.1 (NodeId.str.inj h.symm)
      have z42 : ¬ g4''.HasNode g2.root := fun h => by
        rcases m4 _ h with h | ⟨i, h⟩
        · rw [r2, hy] at h
          exact strOf_colon _ _ c.2.1 c.2.2.2.1 (by decide) _ _ h
        · rw [r2, hy] at h
          cases h
      have z43 : ¬ g4''.HasNode g3''.root := fun h => by
        rw [r3, conanoRoot_qual] at h
        rcases m4 _ h with h | ⟨i, h⟩
        · exact strOf_colon _ _ c.2.2.1 c.2.2.2.1 (by decide) _ _ h
        · cases h
      refine .cons (fun b hb => ?_) (.cons (fun b hb => ?_) (.cons (fun b hb => by cases hb) .nil))
      · simp only [List.mem_cons, List.not_mem_nil, or_false] at hb
        rcases hb with rfl | rfl
        · exact ⟨z23, z32⟩
        · exact ⟨z24, z42⟩
      · obtain rfl := List.mem_singleton.1 hb
        exact ⟨z34, z43⟩)
  exact ⟨g', f1, f2, f3, f7, f6 [] _ _ rfl, f6 [_] _ _ rfl, f6 [_, _] _ [] rfl, f8⟩

/-! ### the hypotheses are met by the four files of the text "das Haus" -/

/-- the TigerXML file -/
def hausTiger : List TigerS :=
  [⟨[("id", "s1")], [("root", "s1_500")], [⟨[("id", "s1_1"), ("word", "das"), ("pos", "ART")], []⟩, ⟨[("id", "s1_2"), ("word", "Haus"), ("pos", "NN")], []⟩],
    [⟨[("id", "s1_500"), ("cat", "NP")], [[("idref", "s1_1"), ("label", "NK")], [("idref", "s1_2"), ("label", "NK")]], []⟩]⟩]

/-- the RST file -/
def hausRst : Rs3Doc := ⟨[], [⟨['1'], some ['2'], some ['s', 'p', 'a', 'n'], .segment (some ['d', 'a', 's', ' ', 'H', 'a', 'u', 's'])⟩, ⟨['2'], none, none, .group (some ['s', 'p', 'a', 'n'])⟩]⟩

/-- the Conano file -/
def hausConano : CElem := .elem "discourse" [] [] [.elem "unit" [("id", "1"), ("type", "ext")] "das Haus".toList [] []] []

/-- its elements -/
def hausConanoTree : CTree := .node "discourse" ["conano"] [] [.node "1:ext" ["conano", "conano:unit", "conano:ext"] "das Haus".toList [] []] []

theorem hausTiger_valid : ValidDoc "tiger" hausTiger := by
  refine ⟨?_, by decide, by decide, by decide⟩
  intro s hs
  obtain rfl := List.mem_singleton.1 hs
  refine ⟨by decide, by unfold XmlOk; decide, by unfold XmlOk; decide, by decide, by decide, by decide, ?_, by decide⟩
  intro pre t post h h1
  cases pre with
  | nil =>
    injection h with h _
    subst h
    exact absurd rfl h1
  | cons x pre =>
    injection h with _ h
    simp at h

theorem hausRst_ok : hausRst.ReadOk := by
  constructor <;> decide

theorem hausConano_distinct : hausConanoTree.Distinct "conano" := by
  unfold CTree.Distinct
  rw [show hausConanoTree.elements 1 = [⟨"discourse", ["conano"], 1, ["das".toList, "Haus".toList]⟩, ⟨"1:ext", ["conano", "conano:unit", "conano:ext"], 1, ["das".toList, "Haus".toList]⟩] from rfl]
  refine ⟨by decide, ?_⟩
  intro x hx
  simp only [List.mem_cons, List.not_mem_nil, or_false] at hx
  rcases hx with rfl | rfl <;> exact ⟨by decide, ne_token_of (by decide)⟩

/-- chances -/
def hausSched (a b : NodeId) : Sched := ⟨some [b, a], [.str "s1_2", .str "s1_1"]⟩

theorem hausSched_valid {a b : NodeId} (ha : a ∉ [NodeId.str "s1_1", .str "s1_2"]) (hb : b ∉ [NodeId.str "s1_1", .str "s1_2"]) : (hausSched a b).Valid ([a, b].zip [NodeId.str "s1_1", .str "s1_2"]) := by
  refine ⟨?_, List.Perm.swap _ _ _⟩
  unfold RelabelOrder
  rw [if_neg]
  · exact ⟨_, rfl, List.Perm.swap _ _ _⟩
  · rintro ⟨x, hx1, hx2⟩
    simp [keys, vals] at hx1 hx2
    simp at ha hb
    rcases hx1 with rfl | rfl <;> rcases hx2 with rfl | rfl
    · exact ha.1 rfl
    · exact ha.2 rfl
    · exact hb.1 rfl
    · exact hb.2 rfl

example : ∃ g1 g2 edus g3 g4 s2 s3 s4 g', tigerRead "t" "tiger" hausTiger = .ok g1 ∧ rstRead "r" "rst" true true hausRst = .ok (g2, edus) ∧ conanoRead "c" "conano" false hausConano = .ok g3 ∧ anaphRead "a" "anaphoricity" true "das/a Haus\n".toList = .ok g4 ∧
    g1.mergeAll [(g2, s2), (g3, s3), (g4, s4)] = (g', none) ∧ g'.Document ["das", "Haus"] ∧ g'.tokens = [.str "s1_1", .str "s1_2"] ∧ LayerIn [g3, g4] g2 g' ∧ LayerIn [g4] g3 g' ∧ LayerIn [] g4 g' := by
  obtain ⟨g1, g2, edus, g3, g4, e1, e2, e3, e4, h⟩ := c75_all_layers_partial (strs := ["das", "Haus"]) (by simp) "t" hausTiger hausTiger_valid
    (by
      rw [show hausTiger.flatMap (fun s => naturalSorted s.toks) = [.str "s1_1", .str "s1_2"] by decide +kernel]
      exact .cons ⟨_, List.mem_singleton.2 rfl, ⟨[("id", "s1_1"), ("word", "das"), ("pos", "ART")], []⟩, by simp, by decide, by decide⟩ (.cons ⟨_, List.mem_singleton.2 rfl, ⟨[("id", "s1_2"), ("word", "Haus"), ("pos", "NN")], []⟩, by simp, by decide, by decide⟩ .nil))
    "r" true hausRst hausRst_ok (by decide +kernel) (by simp) "c" hausConano hausConanoTree rfl hausConano_distinct (by decide +kernel) "a" true (text := "das/a Haus\n".toList) (ws := ["das/a".toList, "Haus".toList])
    (by
      have := splitBy_words isAsciiSpace "das/a Haus\n".toList
      exact this)
    (.cons (.inr ⟨"das".toList, "abstract", false, ⟨0, ⟨by decide, 'a', [], by decide, by decide, by decide⟩, by simp⟩, by decide⟩) (.cons (.inl ⟨by decide, by decide⟩) .nil))
    (by
      intro x hx
      rw [show hausTiger.flatMap TigerS.declared = [.str "s1_1", .str "s1_2", .str "s1_500"] by decide] at hx
      simp only [List.mem_cons, NodeId.str.injEq, List.not_mem_nil, or_false] at hx
      rcases hx with rfl | rfl | rfl <;> decide)
    (by
      intro p id ls hm
      rw [show hausConanoTree.steps (conanoRoot "conano") = [.elem (conanoRoot "conano") "discourse" ["conano"], .elem (.str "discourse") "1:ext" ["conano", "conano:unit", "conano:ext"], .word (.str "1:ext") "das".toList, .word (.str "1:ext") "Haus".toList] from rfl] at hm
      simp only [List.mem_cons, CStep.elem.injEq, reduceCtorEq, List.not_mem_nil, or_false] at hm
      rcases hm with ⟨-, rfl, -⟩ | ⟨-, rfl, -⟩ <;> decide)
    (by decide)
  have t1 : g1.tokens = [.str "s1_1", .str "s1_2"] := by
    have : (tigerRead "t" "tiger" hausTiger).toOption.map DG.tokens = some [.str "s1_1", .str "s1_2"] := by decide +kernel
    rw [e1] at this
    exact Option.some.inj this
  have t2 : g2.tokens = [.str "rst:rst:1_0", .str "rst:rst:1_1"] := by
    have : (rstRead "r" "rst" true true hausRst).toOption.map (fun p => p.1.tokens) = some [.str "rst:rst:1_0", .str "rst:rst:1_1"] := by decide +kernel
    rw [e2] at this
    exact Option.some.inj this
  have t3 : g3.tokens = [.str "token:1", .str "token:2"] := by
    have : (conanoRead "c" "conano" false hausConano).toOption.map DG.tokens = some [.str "token:1", .str "token:2"] := by decide +kernel
    rw [e3] at this
    exact Option.some.inj this
  have t4 : g4.tokens = [.int 0, .int 1] := by
    have : (anaphRead "a" "anaphoricity" true "das/a Haus\n".toList).toOption.map DG.tokens = some [.int 0, .int 1] := by decide +kernel
    rw [e4] at this
    exact Option.some.inj this
  obtain ⟨g', f1, f2, f3, -, f5, f6, f7, -⟩ := h _ _ _ (by rw [t1, t2]; exact hausSched_valid (by decide) (by decide)) (by rw [t1, t3]; exact hausSched_valid (by decide) (by decide)) (by rw [t1, t4]; exact hausSched_valid (by decide) (by decide))
  exact ⟨g1, g2, edus, g3, g4, _, _, _, g', e1, e2, e3, e4, f1, f2, f3.trans t1, f5, f6, f7⟩

/-- **C75 is violated** (tiger): with another namespace than "tiger", the document read from a TigerXML file has tokens, but not one of them has a string, so that no layer can be added -/
theorem c75_fails_tiger_namespace : ((tigerRead "t" "syntax" hausTiger).toOption.map (fun g => (g.tokens, g.getTokens.1))) = some ([.str "s1_1", .str "s1_2"], []) ∧
    ((tigerRead "t" "syntax" hausTiger).toOption.bind (fun g1 => (anaphRead "a" "anaphoricity" true "das/a Haus\n".toList).toOption.map (fun g4 => (g1.mergeGraphs g4 (hausSched (.int 0) (.int 1))).2))) = some (some .key) := by decide +kernel

/-- **C75 is violated** (tokens): the RST reader and the TigerXML reader do not agree on what a token is: if a punctuation mark is not separated by a space in the RST file (as in all files not tokenized beforehand), the documents cannot be merged -/
theorem c75_fails_untokenized : ((tigerRead "t" "tiger" hausTiger).toOption.bind (fun g1 => (rstRead "r" "rst" true true ⟨[], [⟨['1'], none, none, .segment (some ['d', 'a', 's', ' ', 'H', 'a', 'u', 's', '.'])⟩]⟩).toOption.map (fun r =>
    (g1.mergeGraphs r.1 (hausSched (.str "rst:rst:1_0") (.str "rst:rst:1_1"))).2))) = some (some .value) := by decide +kernel

end DG
end Dg
