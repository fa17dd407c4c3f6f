import Verif.Lemmas.SaltDoc

namespace Dg
open Dict
open DG (mapE mapE_ok bind_ok_iff)

theorem saltAt_sub (l : List SaltObj) (c : SaltClass) : saltAt l (subtypeIds l c) = l.filter (fun o => o.cls.isSub c) := by
  unfold saltAt subtypeIds
  rw [List.filterMap_map]
  have h : ∀ ps : List (SaltObj × Nat), (∀ p ∈ ps, l[p.2]? = some p.1) → ps.filterMap ((fun i => l[i]?) ∘ Prod.snd) = ps.map Prod.fst := by
    intro ps
    induction ps with
    | nil => intro _; rfl
    | cons p ps ih =>
      intro hp
      rw [List.filterMap_cons, List.map_cons, ← ih (fun q hq => hp q (.tail _ hq))]
      simp only [Function.comp_apply, hp p (.head _)]
  rw [h]
  · have h2 : ∀ ps : List (SaltObj × Nat), (ps.filter (fun x => x.1.cls.isSub c)).map Prod.fst = (ps.map Prod.fst).filter (fun o => o.cls.isSub c) := by
      intro ps
      induction ps with
      | nil => rfl
      | cons p ps ih =>
        rw [List.filter_cons, List.map_cons, List.filter_cons]
        split
        · rw [List.map_cons, ih]
        · exact ih
    rw [h2, List.zipIdx_map_fst]
  · intro p hp
    exact List.mem_zipIdx_iff_getElem?.1 (List.mem_filter.1 hp).1

theorem made_isSub {o : SaltObj} (h : o.Made) {c : SaltClass} (hc : c ∈ [SaltClass.token, .span, .structure, .spanning, .textual, .dominance]) : o.cls.isSub c = decide (o.cls = c) := by
  have h1 := h.cls
  revert h1 hc
  cases o.cls <;> cases c <;> decide

theorem made_filter {l : List SaltObj} (h : ∀ o ∈ l, o.Made) {c : SaltClass} (hc : c ∈ [SaltClass.token, .span, .structure, .spanning, .textual, .dominance]) :
    l.filter (fun o => o.cls.isSub c) = l.filter (fun o => o.cls = c) :=
  List.filter_congr (fun o ho => made_isSub (h o ho) hc)

theorem made_none {l : List SaltObj} (h : ∀ o ∈ l, o.Made) {c : SaltClass} (hc : c ∈ [SaltClass.token, .span, .structure, .spanning]) : l.filter (fun o => o.cls.isSub c) = [] := by
  rw [List.filter_eq_nil_iff]
  intro o ho
  have h1 := (h o ho).cls
  revert h1 hc
  cases o.cls <;> cases c <;> decide

theorem saltIndex_ok {n : Nat} {i : Nat} (h : i < n) : saltIndex n i = .ok i := by
  unfold saltIndex
  rw [if_pos (by omega), if_pos (by omega)]
  simp

theorem saltSet_ok {nodes : List SaltObj} {i : Nat} (h : i < nodes.length) (f : SaltObj → SaltObj) : saltSet nodes i f = .ok (nodes.modify i f) := by
  unfold saltSet
  rw [saltIndex_ok h]
  rfl

/-- what the textual relations change -/
def SaltObj.withOffsets (o : SaltObj) : Option SaltObj → SaltObj
  | some e => { o with onset := e.onset, offset := e.offset }
  | none => o

theorem saltOffsets_ok : ∀ (es nodes : List SaltObj), (∀ e ∈ es, ∃ (i : Nat) (a b : Int), i < nodes.length ∧ e.source = some (i : Int) ∧ e.onset = some a ∧ e.offset = some b) →
    ∃ nodes', saltOffsets nodes es = .ok nodes' ∧ nodes'.length = nodes.length ∧
      ∀ (i : Nat) o, nodes[i]? = some o → nodes'[i]? = some (o.withOffsets (es.filter (fun e => e.source = some (i : Int))).getLast?)
  | [], nodes, _ => ⟨nodes, rfl, rfl, fun i o h => h⟩
  | e :: es, nodes, h => by
    obtain ⟨k, a, b, hk, hs, ha, hb⟩ := h e (.head _)
    obtain ⟨nodes', h1, h2, h3⟩ := saltOffsets_ok es ((nodes.modify k (fun o => { o with onset := some a })).modify k (fun o => { o with offset := some b })) (by
      intro e' he'
      obtain ⟨i, a, b, hi, hx⟩ := h e' (.tail _ he')
      exact ⟨i, a, b, by simpa using hi, hx⟩)
    refine ⟨nodes', ?_, by simpa using h2, ?_⟩
    · unfold saltOffsets
      simp only [hs, ha, hb, saltAttr, bind, Except.bind]
      rw [saltSet_ok hk]
      dsimp only
      rw [saltSet_ok (by simpa using hk)]
      exact h1
    · intro i o ho
      have hstep : ((nodes.modify k (fun o => { o with onset := some a })).modify k (fun o => { o with offset := some b }))[i]? =
          some (if k = i then { o with onset := some a, offset := some b } else o) := by
        rw [List.getElem?_modify, List.getElem?_modify, ho]
        split <;> rfl
      rw [h3 i _ hstep, List.filter_cons]
      by_cases hki : k = i
      · subst hki
        rw [if_pos rfl, if_pos (by simp [hs]), List.getLast?_cons]
        cases hl : (es.filter (fun e => decide (e.source = some (k : Int)))).getLast? with
        | none => simp [SaltObj.withOffsets, ha, hb]
        | some e' => simp [SaltObj.withOffsets]
      · rw [if_neg hki, if_neg]
        simp only [hs, Option.some.injEq, decide_eq_true_eq]
        omega

theorem find_saltGroup (k : Int) : ∀ (ps : List (Int × Int)) (d : Dict Int (List Int)),
    (find (ps.foldl (fun d p => saltAppend d p.1 p.2) d) k).getD [] = (find d k).getD [] ++ ps.filterMap (fun p => if p.1 = k then some p.2 else none)
  | [], d => by simp
  | p :: ps, d => by
    rw [List.foldl_cons, find_saltGroup k ps, List.filterMap_cons]
    unfold saltAppend
    rw [find_put]
    by_cases h : p.1 = k
    · subst h
      simp
    · simp [h]

theorem getD_saltGroup (k : Int) (ps : List (Int × Int)) : (find (saltGroup ps) k).getD [] = ps.filterMap (fun p => if p.1 = k then some p.2 else none) := by
  unfold saltGroup
  rw [find_saltGroup]
  rfl

theorem saltStore_ok (set : List Int → SaltObj → SaltObj) (d : Dict Int (List Int)) : ∀ (ks : List Int) (nodes : List SaltObj), ks.Nodup → (∀ k ∈ ks, ∃ i : Nat, i < nodes.length ∧ k = i) →
    ∃ nodes', saltStore set d nodes ks = .ok nodes' ∧ nodes'.length = nodes.length ∧
      ∀ (i : Nat) o, nodes[i]? = some o → nodes'[i]? = some (if (i : Int) ∈ ks then set ((find d i).getD []) o else o)
  | [], nodes, _, _ => ⟨nodes, rfl, rfl, fun i o h => by simpa using h⟩
  | k :: ks, nodes, hn, h => by
    obtain ⟨j, hj, rfl⟩ := h k (.head _)
    obtain ⟨hnot, hn⟩ := List.nodup_cons.1 hn
    obtain ⟨nodes', h1, h2, h3⟩ := saltStore_ok set d ks (nodes.modify j (set ((find d j).getD []))) hn (by
      intro k hk
      obtain ⟨i, hi, rfl⟩ := h k (.tail _ hk)
      exact ⟨i, by simpa using hi, rfl⟩)
    refine ⟨nodes', ?_, by simpa using h2, ?_⟩
    · unfold saltStore
      rw [saltSet_ok hj]
      exact h1
    · intro i o ho
      have hstep : (nodes.modify j (set ((find d j).getD [])))[i]? = some (if j = i then set ((find d j).getD []) o else o) := by
        rw [List.getElem?_modify, ho]
        split <;> rfl
      rw [h3 i _ hstep]
      by_cases hji : j = i
      · subst hji
        rw [if_neg hnot, if_pos rfl, if_pos (.head _)]
      · rw [if_neg hji]
        have : ((i : Int) ∈ (j : Int) :: ks) ↔ (i : Int) ∈ ks := by
          rw [List.mem_cons]
          constructor
          · rintro (h | h)
            · omega
            · exact h
          · exact .inr
        simp only [this]

theorem saltEnds_ok : ∀ (es : List SaltObj), (∀ e ∈ es, ∃ s t, e.source = some s ∧ e.target = some t) →
    ∃ ps, saltEnds es = .ok ps ∧ List.Forall₂ (fun e (p : Int × Int) => e.source = some p.1 ∧ e.target = some p.2) es ps
  | [], _ => ⟨[], rfl, .nil⟩
  | e :: es, h => by
    obtain ⟨s, t, hs, ht⟩ := h e (.head _)
    obtain ⟨ps, h1, h2⟩ := saltEnds_ok es (fun e he => h e (.tail _ he))
    refine ⟨(s, t) :: ps, ?_, .cons ⟨hs, ht⟩ h2⟩
    refine mapE_ok.2 (.cons ?_ (mapE_ok.1 h1))
    simp only [hs, ht, saltAttr, bind, Except.bind]

theorem grouped_targets : ∀ {es : List SaltObj} {ps : List (Int × Int)}, List.Forall₂ (fun e (p : Int × Int) => e.source = some p.1 ∧ e.target = some p.2) es ps → ∀ k : Int,
    ps.filterMap (fun p => if p.1 = k then some p.2 else none) = es.filterMap (fun e => if e.source = some k then e.target else none)
  | _, _, .nil, _ => rfl
  | e :: _, p :: _, .cons h hs, k => by
    rw [List.filterMap_cons, List.filterMap_cons, grouped_targets hs k]
    by_cases hk : p.1 = k
    · simp [hk, h.1, h.2]
    · simp [hk, h.1]

theorem grouped_sources : ∀ {es : List SaltObj} {ps : List (Int × Int)}, List.Forall₂ (fun e (p : Int × Int) => e.source = some p.1 ∧ e.target = some p.2) es ps → ∀ k : Int,
    (ps.map Prod.swap).filterMap (fun p => if p.1 = k then some p.2 else none) = es.filterMap (fun e => if e.target = some k then e.source else none)
  | _, _, .nil, _ => rfl
  | e :: _, p :: _, .cons h hs, k => by
    rw [List.map_cons, List.filterMap_cons, List.filterMap_cons, grouped_sources hs k]
    by_cases hk : p.2 = k
    · simp [hk, h.1, h.2]
    · simp [hk, h.2]

theorem filterMap_filter_cls (es : List SaltObj) (c : SaltClass) (P : SaltObj → Prop) [DecidablePred P] (f : SaltObj → Option Int) :
    (es.filter (fun e => e.cls = c)).filterMap (fun e => if P e then f e else none) = es.filterMap (fun e => if e.cls = c ∧ P e then f e else none) := by
  induction es with
  | nil => rfl
  | cons e es ih =>
    rw [List.filter_cons, List.filterMap_cons]
    by_cases h : e.cls = c
    · rw [if_pos (by simpa using h), List.filterMap_cons, ih]
      simp [h]
    · rw [if_neg (by simpa using h), ih]
      simp [h]

theorem extract_none : ∀ (ns : List (SaltObj × Nat)) (toks : List Nat), extractSentences [] toks ns = .ok []
  | [], _ => rfl
  | (o, i) :: ns, toks => by
    unfold extractSentences
    rw [if_neg (by simp)]
    exact extract_none ns toks

/-! the classes of the nodes never change -/

theorem cls_set {nodes nodes' : List SaltObj} {i : Int} {f : SaltObj → SaltObj} (hf : ∀ o, (f o).cls = o.cls) (h : saltSet nodes i f = .ok nodes') : nodes'.map SaltObj.cls = nodes.map SaltObj.cls := by
  unfold saltSet at h
  rw [bind_ok_iff] at h
  obtain ⟨k, _, h⟩ := h
  cases h
  apply List.ext_getElem?
  intro j
  rw [List.getElem?_map, List.getElem?_map, List.getElem?_modify]
  cases nodes[j]? with
  | none => rfl
  | some o =>
    dsimp only [Option.map_some]
    split
    · exact congrArg some (hf o)
    · rfl

theorem cls_offsets : ∀ (es nodes nodes' : List SaltObj), saltOffsets nodes es = .ok nodes' → nodes'.map SaltObj.cls = nodes.map SaltObj.cls
  | [], nodes, nodes', h => by cases h; rfl
  | e :: es, nodes, nodes', h => by
    unfold saltOffsets at h
    simp only [bind_ok_iff] at h
    obtain ⟨_, _, _, _, n1, h1, _, _, n2, h2, h⟩ := h
    rw [cls_offsets es _ _ h, cls_set (by intro _; rfl) h2, cls_set (by intro _; rfl) h1]

theorem cls_store {set : List Int → SaltObj → SaltObj} (hset : ∀ v o, (set v o).cls = o.cls) (d : Dict Int (List Int)) : ∀ (ks : List Int) (nodes nodes' : List SaltObj),
    saltStore set d nodes ks = .ok nodes' → nodes'.map SaltObj.cls = nodes.map SaltObj.cls
  | [], nodes, nodes', h => by cases h; rfl
  | k :: ks, nodes, nodes', h => by
    unfold saltStore at h
    simp only [bind_ok_iff] at h
    obtain ⟨n1, h1, h⟩ := h
    rw [cls_store hset d ks _ _ h, cls_set (hset _) h1]

end Dg
