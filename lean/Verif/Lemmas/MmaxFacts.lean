import Verif.Lemmas.MmaxRead
import Verif.Lemmas.Urml
import Verif.Props.C60

/-! What the calls of the MMAX2 reader do. -/

namespace Dg
open Dict
namespace DG

variable {ns : String} {doc : MmaxDoc} {precedence connected ignore : Bool} {lv : List (String × List Markable)}

/-- the calls up to the sorting of the sentences -/
def mmaxBody (ns : String) (precedence connected ignore : Bool) (doc : MmaxDoc) (lv : List (String × List Markable)) : List Instr :=
  mmaxCalls ns precedence connected doc lv ++ if ignore then doc.sents.flatMap (mmaxSentCalls ns doc) else []

theorem levelMarks_perm (hlv : lv.Perm doc.levels) : (levelMarks lv).Perm doc.marks := hlv.flatMap_right _

theorem mmaxBody_ok (hd : doc.Ok ns ignore) (hlv : lv.Perm doc.levels) : ∀ i ∈ mmaxBody ns precedence connected ignore doc lv, i.Ok (fun _ => False) := by
  intro i hi
  rcases List.mem_append.1 hi with hi | hi
  · rcases List.mem_append.1 hi with hi | hi
    · exact mmaxTokenCalls_ok _ _ _ _ i hi
    · obtain ⟨x, hx, hi⟩ := List.mem_flatMap.1 hi
      exact markCalls_ok ns doc x (hd.marks x ((levelMarks_perm hlv).mem_iff.1 hx)).attrs i hi
  · split at hi
    · obtain ⟨m, _, hi⟩ := List.mem_flatMap.1 hi
      exact mmaxSentCalls_ok ns doc m i hi
    · cases hi

/-- the attributes of a word -/
def wordDict (ns : String) (w : String × String) : Attrs := [(qual ns "token", strV w.2), ("label", strV w.2)]

/-- the attributes of a markable -/
def markDict (ns : String) (x : String × Markable) : Attrs := xmlAttrs ns x.2.attrs ++ [("label", strV (qual x.2.id x.1))]

/-- the nodes added by the calls -/
def NodeCall (ns : String) (ignore : Bool) (doc : MmaxDoc) (n : NodeId) (ls : List String) (d : Attrs) : Prop :=
  (n = docRoot ns ∧ ls = [ns] ∧ d = []) ∨
  (∃ w ∈ doc.words, n = .str w.1 ∧ ls = [ns, qual ns "token"] ∧ d = wordDict ns w) ∨
  (∃ x ∈ doc.marks, n = x.2.node ∧ ls = levelLayers ns x.1 ∧ d = markDict ns x) ∨
  (∃ x ∈ doc.marks, ∃ a ∈ x.2.antes, a.2 ∉ doc.wordIds ∧ n = .str a.2 ∧ ls = [ns, qual ns "markable"] ∧ d = []) ∨
  (ignore = true ∧ ∃ m ∈ doc.sents, n = m.node ∧ ls = [ns, qual ns "sentence"] ∧ d = [])

theorem tokenCalls_node {n : NodeId} {ls : List String} {d : Attrs} : Instr.node n ls d ∈ mmaxTokenCalls ns precedence connected doc ↔ (n = docRoot ns ∧ ls = [ns] ∧ d = []) ∨ ∃ w ∈ doc.words, n = .str w.1 ∧ ls = [ns, qual ns "token"] ∧ d = wordDict ns w := by
  unfold mmaxTokenCalls
  rw [List.mem_cons, List.mem_append, List.mem_flatMap]
  constructor
  · rintro (h | ⟨w, hw, h⟩ | h)
    · cases h; exact .inl ⟨rfl, rfl, rfl⟩
    · right
      unfold mmaxWordCalls at h
      rcases List.mem_append.1 h with h | h
      · simp only [List.mem_cons, List.not_mem_nil, or_false, reduceCtorEq, false_or] at h
        cases h
        exact ⟨w, hw, rfl, rfl, rfl⟩
      · split at h
        · cases List.mem_singleton.1 h
        · cases h
    · split at h
      · obtain ⟨e, _, h⟩ := List.mem_map.1 h; cases h
      · cases h
  · rintro (⟨rfl, rfl, rfl⟩ | ⟨w, hw, rfl, rfl, rfl⟩)
    · exact .inl rfl
    · exact .inr (.inl ⟨w, hw, by unfold mmaxWordCalls wordDict; simp⟩)

theorem markCalls_node {n : NodeId} {ls : List String} {d : Attrs} {x : String × Markable} : Instr.node n ls d ∈ markCalls ns doc x ↔ (n = x.2.node ∧ ls = levelLayers ns x.1 ∧ d = markDict ns x) ∨ ∃ a ∈ x.2.antes, a.2 ∉ doc.wordIds ∧ n = .str a.2 ∧ ls = [ns, qual ns "markable"] ∧ d = [] := by
  unfold markCalls
  rw [List.mem_cons, List.mem_append, List.mem_flatMap]
  constructor
  · rintro (h | h | ⟨a, ha, h⟩)
    · cases h; exact .inl ⟨rfl, rfl, rfl⟩
    · obtain ⟨e, _, h⟩ := List.mem_map.1 h; cases h
    · right
      unfold anteCalls at h
      rcases List.mem_append.1 h with h | h
      · split at h
        · cases h
        · rename_i hw
          cases List.mem_singleton.1 h
          exact ⟨a, ha, hw, rfl, rfl, rfl⟩
      · cases List.mem_singleton.1 h
  · rintro (⟨rfl, rfl, rfl⟩ | ⟨a, ha, hw, rfl, rfl, rfl⟩)
    · exact .inl rfl
    · exact .inr (.inr ⟨a, ha, by unfold anteCalls; simp [hw]⟩)

theorem body_node (hd : doc.Ok ns ignore) (hlv : lv.Perm doc.levels) {n : NodeId} {ls : List String} {d : Attrs} : Instr.node n ls d ∈ mmaxBody ns precedence connected ignore doc lv ↔ NodeCall ns ignore doc n ls d := by
  unfold mmaxBody mmaxCalls NodeCall
  rw [List.mem_append, List.mem_append, tokenCalls_node, List.mem_flatMap]
  simp only [markCalls_node]
  constructor
  · rintro ((h | ⟨x, hx, h⟩) | h)
    · rcases h with h | h
      · exact .inl h
      · exact .inr (.inl h)
    · have hx := (levelMarks_perm hlv).mem_iff.1 hx
      rcases h with h | h
      · exact .inr (.inr (.inl ⟨x, hx, h⟩))
      · exact .inr (.inr (.inr (.inl ⟨x, hx, h⟩)))
    · split at h
      · rename_i hi
        obtain ⟨m, hm, h⟩ := List.mem_flatMap.1 h
        obtain ⟨t, _, h⟩ := List.mem_map.1 h
        cases h
        exact .inr (.inr (.inr (.inr ⟨hi, m, hm, rfl, rfl, rfl⟩)))
      · cases h
  · rintro (h | h | ⟨x, hx, h⟩ | ⟨x, hx, h⟩ | ⟨hi, m, hm, rfl, rfl, rfl⟩)
    · exact .inl (.inl (.inl h))
    · exact .inl (.inl (.inr h))
    · exact .inl (.inr ⟨x, (levelMarks_perm hlv).mem_iff.2 hx, .inl h⟩)
    · exact .inl (.inr ⟨x, (levelMarks_perm hlv).mem_iff.2 hx, .inr h⟩)
    · right
      rw [if_pos hi]
      refine List.mem_flatMap.2 ⟨m, hm, ?_⟩
      have hne : doc.toks m ≠ [] := hd.sentenceToks m (by unfold MmaxDoc.sentences; rw [if_pos hi]; exact hm)
      obtain ⟨t, ht⟩ := List.exists_mem_of_ne_nil _ hne
      exact List.mem_map.2 ⟨t, ht, rfl⟩

/-- every mentioned node is added by a call, too -/
theorem body_mentions (hd : doc.Ok ns ignore) (hlv : lv.Perm doc.levels) {m : NodeId} : (∃ i ∈ mmaxBody ns precedence connected ignore doc lv, i.Mentions m) ↔ ∃ ls d, NodeCall ns ignore doc m ls d := by
  constructor
  · rintro ⟨i, hi, hm⟩
    cases i with
    | node n ls d => rw [show m = n from hm]; exact ⟨ls, d, (body_node hd hlv).1 hi⟩
    | attr => exact hm.elim
    | token => exact hm.elim
    | sentence => exact hm.elim
    | edge u v ls d =>
      have htok : ∀ t ∈ doc.tokens, ∃ ls d, NodeCall ns ignore doc t ls d := by
        intro t ht
        obtain ⟨i, hi, rfl⟩ := List.mem_map.1 ht
        obtain ⟨w, hw, rfl⟩ := List.mem_map.1 hi
        exact ⟨_, _, .inr (.inl ⟨w, hw, rfl, rfl, rfl⟩)⟩
      rcases List.mem_append.1 hi with hi | hi
      · rcases List.mem_append.1 hi with hi | hi
        · rcases (mmaxTokenCalls_mentions ns precedence connected doc m).1 ⟨_, hi, hm⟩ with rfl | h
          · exact ⟨_, _, .inl ⟨rfl, rfl, rfl⟩⟩
          · exact htok m h
        · obtain ⟨x, hx, hi⟩ := List.mem_flatMap.1 hi
          have hx := (levelMarks_perm hlv).mem_iff.1 hx
          have hx' : ∃ ls d, NodeCall ns ignore doc x.2.node ls d := ⟨_, _, .inr (.inr (.inl ⟨x, hx, rfl, rfl, rfl⟩))⟩
          unfold markCalls at hi
          rcases List.mem_cons.1 hi with hi | hi
          · cases hi
          rcases List.mem_append.1 hi with hi | hi
          · obtain ⟨t, ht, e⟩ := List.mem_map.1 hi
            cases e
            rcases hm with rfl | rfl
            · exact hx'
            · exact htok _ (toks_tokens _ _ ht)
          · obtain ⟨a, ha, hi⟩ := List.mem_flatMap.1 hi
            unfold anteCalls at hi
            rcases List.mem_append.1 hi with hi | hi
            · split at hi
              · cases hi
              · cases List.mem_singleton.1 hi
            · cases List.mem_singleton.1 hi
              rcases hm with rfl | rfl
              · exact hx'
              · by_cases hw : a.2 ∈ doc.wordIds
                · exact htok _ (List.mem_map.2 ⟨_, hw, rfl⟩)
                · exact ⟨_, _, .inr (.inr (.inr (.inl ⟨x, hx, a, ha, hw, rfl, rfl, rfl⟩)))⟩
      · split at hi
        · obtain ⟨y, _, hi⟩ := List.mem_flatMap.1 hi
          obtain ⟨t, _, hi⟩ := List.mem_map.1 hi
          cases hi
        · cases hi
  · rintro ⟨ls, d, h⟩
    exact ⟨_, (body_node hd hlv).2 h, rfl⟩

theorem NodeCall.layer {n : NodeId} {ls : List String} {d : Attrs} (h : NodeCall ns ignore doc n ls d) : ns ∈ ls := by
  rcases h with ⟨_, rfl, _⟩ | ⟨w, _, _, rfl, _⟩ | ⟨x, _, _, rfl, _⟩ | ⟨x, _, a, _, _, _, rfl, _⟩ | ⟨_, m, _, _, rfl, _⟩ <;> simp [levelLayers]

/-! ### edges -/

theorem body_edges : (mmaxBody ns precedence connected ignore doc lv).filterMap Instr.spec = wordEdges ns precedence connected doc ++ (levelMarks lv).flatMap (markEdges ns doc) := by
  unfold mmaxBody mmaxCalls
  rw [List.filterMap_append, List.filterMap_append]
  have h3 : (if ignore then doc.sents.flatMap (mmaxSentCalls ns doc) else []).filterMap Instr.spec = [] := by
    rw [List.filterMap_eq_nil_iff]
    intro i hi
    split at hi
    · obtain ⟨y, _, hi⟩ := List.mem_flatMap.1 hi
      obtain ⟨t, _, rfl⟩ := List.mem_map.1 hi
      rfl
    · cases hi
  have h2 : ((levelMarks lv).flatMap (markCalls ns doc)).filterMap Instr.spec = (levelMarks lv).flatMap (markEdges ns doc) := by
    rw [flatMap_filterMap]
    congr 1
    funext x
    unfold markCalls markEdges
    show List.filterMap Instr.spec (_ ++ _) = _
    rw [List.filterMap_append, List.filterMap_map]
    congr 1
    · rw [← List.filterMap_eq_map]; rfl
    · rw [flatMap_filterMap, List.map_eq_flatMap]
      congr 1
      funext a
      unfold anteCalls
      rw [List.filterMap_append]
      split <;> rfl
  have h1 : (mmaxTokenCalls ns precedence connected doc).filterMap Instr.spec = wordEdges ns precedence connected doc := by
    unfold mmaxTokenCalls wordEdges
    show List.filterMap Instr.spec (_ ++ _) = _
    rw [List.filterMap_append, flatMap_filterMap]
    cases precedence with
    | true =>
      simp only [if_true, Bool.not_true, Bool.and_false]
      rw [edgeCalls_spec]
      have : doc.words.flatMap (fun x => (mmaxWordCalls ns false x).filterMap Instr.spec) = [] := by
        rw [List.flatMap_eq_nil_iff]; intro w _; rfl
      rw [this, List.nil_append]
    | false =>
      simp only [Bool.false_eq_true, if_false, Bool.not_false, Bool.and_true, List.filterMap_nil, List.append_nil]
      cases connected with
      | false =>
        simp only [Bool.false_eq_true, if_false]
        rw [List.flatMap_eq_nil_iff]; intro w _; rfl
      | true =>
        simp only [if_true]
        unfold MmaxDoc.tokens MmaxDoc.wordIds
        rw [List.map_map, List.map_map, List.map_eq_flatMap]
        rfl
  rw [h1, h2, h3, List.append_nil]

theorem body_tokens : (mmaxBody ns precedence connected ignore doc lv).flatMap Instr.newTokens = doc.tokens := by
  unfold mmaxBody mmaxCalls
  rw [List.flatMap_append, List.flatMap_append, mmaxTokenCalls_tokens]
  have h2 : ((levelMarks lv).flatMap (markCalls ns doc)).flatMap Instr.newTokens = [] := by
    rw [List.flatMap_eq_nil_iff]
    intro i hi
    obtain ⟨x, _, hi⟩ := List.mem_flatMap.1 hi
    unfold markCalls at hi
    rcases List.mem_cons.1 hi with rfl | hi
    · rfl
    rcases List.mem_append.1 hi with hi | hi
    · obtain ⟨t, ht, rfl⟩ := List.mem_map.1 hi; rfl
    · obtain ⟨a, ha, hi⟩ := List.mem_flatMap.1 hi
      unfold anteCalls at hi
      rcases List.mem_append.1 hi with hi | hi
      · split at hi
        · cases hi
        · rw [List.mem_singleton.1 hi]; rfl
      · rw [List.mem_singleton.1 hi]; rfl
  have h3 : (if ignore then doc.sents.flatMap (mmaxSentCalls ns doc) else []).flatMap Instr.newTokens = [] := by
    rw [List.flatMap_eq_nil_iff]
    intro i hi
    split at hi
    · obtain ⟨y, _, hi⟩ := List.mem_flatMap.1 hi
      obtain ⟨t, _, rfl⟩ := List.mem_map.1 hi
      rfl
    · cases hi
  rw [h2, h3, List.append_nil, List.append_nil]

theorem body_sentences : (mmaxBody ns precedence connected ignore doc lv).flatMap Instr.newSentences = [] := by
  rw [List.flatMap_eq_nil_iff]
  intro i hi
  unfold mmaxBody mmaxCalls at hi
  rcases List.mem_append.1 hi with hi | hi
  · rcases List.mem_append.1 hi with hi | hi
    · unfold mmaxTokenCalls at hi
      rcases List.mem_cons.1 hi with rfl | hi
      · rfl
      rcases List.mem_append.1 hi with hi | hi
      · obtain ⟨w, _, hi⟩ := List.mem_flatMap.1 hi
        unfold mmaxWordCalls at hi
        rcases List.mem_append.1 hi with hi | hi
        · simp only [List.mem_cons, List.not_mem_nil, or_false] at hi
          rcases hi with rfl | rfl <;> rfl
        · split at hi
          · rw [List.mem_singleton.1 hi]; rfl
          · cases hi
      · split at hi
        · obtain ⟨e, he, rfl⟩ := List.mem_map.1 hi; rfl
        · cases hi
    · obtain ⟨x, _, hi⟩ := List.mem_flatMap.1 hi
      unfold markCalls at hi
      rcases List.mem_cons.1 hi with rfl | hi
      · rfl
      rcases List.mem_append.1 hi with hi | hi
      · obtain ⟨t, ht, rfl⟩ := List.mem_map.1 hi; rfl
      · obtain ⟨a, ha, hi⟩ := List.mem_flatMap.1 hi
        unfold anteCalls at hi
        rcases List.mem_append.1 hi with hi | hi
        · split at hi
          · cases hi
          · rw [List.mem_singleton.1 hi]; rfl
        · rw [List.mem_singleton.1 hi]; rfl
  · split at hi
    · obtain ⟨y, _, hi⟩ := List.mem_flatMap.1 hi
      obtain ⟨t, _, rfl⟩ := List.mem_map.1 hi
      rfl
    · cases hi

/-! ### attributes -/

/-- like `lastWrite_node`, but other calls without attributes are allowed -/
theorem lastWrite_node' {s : List Instr} (hok : ∀ i ∈ s, i.Ok (fun _ => False)) {n : NodeId} {ls : List String} {d : Attrs} (h : Instr.node n ls d ∈ s) (hu : ∀ ls' d', Instr.node n ls' d' ∈ s → d' = d ∨ d' = []) (k : String) : lastWrite n k s = find d k := by
  have hw : ∀ i ∈ s, ∀ v, i.write n k = some v → find d k = some v := by
    intro i hi v hv
    cases i with
    | node n' ls' d' =>
      simp only [Instr.write] at hv
      split at hv
      · rename_i e
        subst e
        rcases hu ls' d' hi with rfl | rfl
        · exact hv
        · cases hv
      · cases hv
    | attr => exact (hok _ hi).1.elim
    | edge => cases hv
    | token => cases hv
    | sentence => cases hv
  cases hd : find d k with
  | some v =>
    refine lastWrite_unique ⟨_, h, by simp [Instr.write, hd]⟩ ?_
    intro i hi v' hv'
    have := hw i hi v' hv'
    rw [hd] at this
    exact (Option.some.inj this).symm
  | none =>
    apply lastWrite_none
    intro i hi
    cases hx : i.write n k with
    | none => rfl
    | some v =>
      have := hw i hi v hx
      rw [hd] at this
      cases this

theorem body_write (hd : doc.Ok ns ignore) (hlv : lv.Perm doc.levels) {n : NodeId} {ls : List String} {d : Attrs} (h : NodeCall ns ignore doc n ls d) (hu : ∀ ls' d', NodeCall ns ignore doc n ls' d' → d' = d ∨ d' = []) (k : String) :
    lastWrite n k (mmaxBody ns precedence connected ignore doc lv) = find d k :=
  lastWrite_node' (mmaxBody_ok hd hlv) ((body_node hd hlv).2 h) (fun ls' d' h' => hu ls' d' ((body_node hd hlv).1 h')) k

end DG
end Dg
