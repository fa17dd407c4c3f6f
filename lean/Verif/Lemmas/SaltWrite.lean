import Verif.Lemmas.Salt

namespace Dg
open Dict
open DG (mapE mapE_ok bind_ok_iff)

/-- how the elements of a kind are read -/
def readKind : SaltKind → SXml → Except PyErr SaltObj
  | .node => saltNode
  | .text => saltPrimaryText
  | .edge => saltEdge
  | .textual => saltTextual
  | .dominance => saltDominance
  | .layer => saltLayer

theorem instance_iff {e : SXml} {o : SaltObj} : saltInstance e = .ok o ↔ ∃ x k, find e.attrs xsiType = some x ∧ (x, k) ∈ saltKinds ∧ readKind k e = .ok o := by
  unfold saltInstance
  simp only [bind_ok_iff, getXsiType_ok]
  constructor
  · rintro ⟨x, hx, h⟩
    split at h
    · rename_i hk; exact ⟨x, .node, hx, by simp [saltKinds, hk], h⟩
    split at h
    · rename_i hk; exact ⟨x, .node, hx, by simp [saltKinds, hk], h⟩
    split at h
    · rename_i hk; exact ⟨x, .node, hx, by simp [saltKinds, hk], h⟩
    split at h
    · rename_i hk; exact ⟨x, .text, hx, by simp [saltKinds, hk], h⟩
    split at h
    · rename_i hk; exact ⟨x, .edge, hx, by simp [saltKinds, hk], h⟩
    split at h
    · rename_i hk; exact ⟨x, .textual, hx, by simp [saltKinds, hk], h⟩
    split at h
    · rename_i hk; exact ⟨x, .dominance, hx, by simp [saltKinds, hk], h⟩
    split at h
    · rename_i hk; exact ⟨x, .layer, hx, by simp [saltKinds, hk], h⟩
    · cases h
  · rintro ⟨x, k, hx, hk, h⟩
    refine ⟨x, hx, ?_⟩
    simp only [saltKinds, List.mem_cons, Prod.mk.injEq, List.not_mem_nil, or_false] at hk
    rcases hk with ⟨rfl, rfl⟩ | ⟨rfl, rfl⟩ | ⟨rfl, rfl⟩ | ⟨rfl, rfl⟩ | ⟨rfl, rfl⟩ | ⟨rfl, rfl⟩ | ⟨rfl, rfl⟩ | ⟨rfl, rfl⟩ <;> simp only [String.reduceEq, if_false, if_true] <;> exact h

theorem saltInt_iff {e : SXml} (h : e.OnlyLabels) {ls : List SaltLabel} (hs : List.Forall₂ SXml.SaysLabel e.children ls) {name : String} {i : Int} :
    saltInt e name = .ok i ↔ ∃ a, firstLabel ls name = some a ∧ pyInt a.toList = some i := by
  unfold saltInt
  rw [labelValue_eq h hs]
  cases firstLabel ls name with
  | none =>
    constructor
    · intro h; cases h
    · rintro ⟨_, h, _⟩; cases h
  | some a =>
    show intOrError a.toList = .ok i ↔ _
    unfold intOrError
    constructor
    · intro h
      split at h
      · rename_i j hj
        cases h
        exact ⟨a, rfl, hj⟩
      · cases h
    · rintro ⟨_, h, hj⟩
      cases h
      rw [hj]

/-- what all objects made from an element share -/
structure SXml.SaysCommon (e : SXml) (o : SaltObj) : Prop where
  labels : List.Forall₂ SXml.SaysLabel e.children o.labels
  name : firstLabel o.labels "SNAME" = some o.name
  id : firstLabel o.labels "id" = o.elementId
  type : find e.attrs xsiType = some o.xsi

theorem says_common {e : SXml} (h : e.OnlyLabels) {o : SaltObj} : saltElement e = .ok o ↔ e.SaysCommon o ∧ o = o.common :=
  (saltElement_ok h).trans ⟨fun ⟨a, b, c, d, f⟩ => ⟨⟨a, b, c, d⟩, f⟩, fun ⟨⟨a, b, c, d⟩, f⟩ => ⟨a, b, c, d, f⟩⟩

theorem read_says {e : SXml} (h : e.OnlyLabels) {o : SaltObj} {k : SaltKind} (ho : readKind k e = .ok o) : e.SaysCommon o ∧ e.SaysKind o k := by
  cases k with
  | node =>
    simp only [readKind, saltNode, bind_ok_iff, says_common h, layerIds_iff] at ho
    obtain ⟨o', ⟨hc, ho'⟩, ids, hl, fs, hf, he⟩ := ho
    rw [annotations_eq _ hc.labels] at hf
    cases hf
    cases he
    rw [ho']
    rw [ho'] at hc
    exact ⟨⟨hc.labels, hc.name, hc.id, hc.type⟩, ids, _, hl, annotationsOf_annotate _, rfl⟩
  | text =>
    simp only [readKind, saltPrimaryText, saltNode, bind_ok_iff, says_common h, layerIds_iff] at ho
    obtain ⟨o1, ⟨o', ⟨hc, ho'⟩, ids, hl, fs, hf, he⟩, t, ht, he'⟩ := ho
    rw [annotations_eq _ hc.labels] at hf
    rw [labelValue_eq h hc.labels] at ht
    cases hf
    cases he
    cases he'
    rw [ho']
    rw [ho'] at hc
    cases hx : firstLabel o'.labels "SDATA" with
    | none => rw [hx] at ht; cases ht
    | some x =>
      rw [hx] at ht
      cases ht
      exact ⟨⟨hc.labels, hc.name, hc.id, hc.type⟩, ids, _, _, hl, annotationsOf_annotate _, hx, rfl⟩
  | edge =>
    simp only [readKind, saltEdge, bind_ok_iff, says_common h, layerIds_iff, nodeId_iff] at ho
    obtain ⟨o', ⟨hc, ho'⟩, ids, hl, s, hs, t, ht, he⟩ := ho
    cases he
    rw [ho']
    rw [ho'] at hc
    exact ⟨⟨hc.labels, hc.name, hc.id, hc.type⟩, ids, s, t, hl, hs, ht, rfl⟩
  | textual =>
    simp only [readKind, saltTextual, saltEdge, bind_ok_iff, says_common h, layerIds_iff, nodeId_iff] at ho
    obtain ⟨o1, ⟨o', ⟨hc, ho'⟩, ids, hl, s, hs, t, ht, he⟩, a, ha, b, hb, he'⟩ := ho
    cases he
    rw [saltInt_iff h hc.labels] at ha hb
    obtain ⟨a', ha, ha'⟩ := ha
    obtain ⟨b', hb, hb'⟩ := hb
    cases he'
    rw [ho']
    rw [ho'] at hc
    exact ⟨⟨hc.labels, hc.name, hc.id, hc.type⟩, ids, s, t, a', b', a, b, hl, hs, ht, ha, hb, ha', hb', rfl⟩
  | dominance =>
    simp only [readKind, saltDominance, saltEdge, bind_ok_iff, says_common h, layerIds_iff, nodeId_iff] at ho
    obtain ⟨o1, ⟨o', ⟨hc, ho'⟩, ids, hl, s, hs, t, ht, he⟩, fs, hf, he'⟩ := ho
    cases he
    rw [annotations_eq _ hc.labels] at hf
    cases hf
    cases he'
    rw [ho']
    rw [ho'] at hc
    exact ⟨⟨hc.labels, hc.name, hc.id, hc.type⟩, ids, s, t, _, hl, hs, ht, annotationsOf_annotate _, rfl⟩
  | layer =>
    simp only [readKind, saltLayer, bind_ok_iff, says_common h] at ho
    obtain ⟨o', ⟨hc, ho'⟩, he⟩ := ho
    cases he
    rw [ho']
    rw [ho'] at hc
    exact ⟨⟨hc.labels, hc.name, hc.id, hc.type⟩, _, _, numbers_says _ _, numbers_says _ _, rfl⟩

/-- the object with the annotations in the order in which they are read -/
def SaltObj.inOrder (o : SaltObj) : SaltObj := { o with features := o.features.map (fun _ => annotate [] o.labels) }

theorem says_read {e : SXml} (h : e.OnlyLabels) {o : SaltObj} {k : SaltKind} (hc : e.SaysCommon o) (hk : e.SaysKind o k) : readKind k e = .ok o.inOrder := by
  have hcm : saltElement e = .ok o.common := (says_common h).2 ⟨⟨hc.labels, hc.name, hc.id, hc.type⟩, rfl⟩
  have han := annotations_eq [] hc.labels
  cases k with
  | node =>
    obtain ⟨ids, fs, hl, hf, ho⟩ := hk
    simp only [readKind, saltNode, hcm, layerIds_iff.2 hl, han, bind, Except.bind]
    rw [ho]
    rfl
  | text =>
    obtain ⟨ids, fs, t, hl, hf, ht, ho⟩ := hk
    have hv := labelValue_eq h hc.labels "SDATA"
    rw [ht] at hv
    simp only [readKind, saltPrimaryText, saltNode, hcm, layerIds_iff.2 hl, han, hv, bind, Except.bind]
    rw [ho]
    rfl
  | edge =>
    obtain ⟨ids, s, t, hl, hs, ht, ho⟩ := hk
    simp only [readKind, saltEdge, hcm, layerIds_iff.2 hl, nodeId_iff.2 hs, nodeId_iff.2 ht, bind, Except.bind]
    rw [ho]
    rfl
  | textual =>
    obtain ⟨ids, s, t, a, b, a', b', hl, hs, ht, ha, hb, ha', hb', ho⟩ := hk
    simp only [readKind, saltTextual, saltEdge, hcm, layerIds_iff.2 hl, nodeId_iff.2 hs, nodeId_iff.2 ht, (saltInt_iff h hc.labels).2 ⟨a, ha, ha'⟩, (saltInt_iff h hc.labels).2 ⟨b, hb, hb'⟩,
      bind, Except.bind]
    rw [ho]
    rfl
  | dominance =>
    obtain ⟨ids, s, t, fs, hl, hs, ht, hf, ho⟩ := hk
    simp only [readKind, saltDominance, saltEdge, hcm, layerIds_iff.2 hl, nodeId_iff.2 hs, nodeId_iff.2 ht, han, bind, Except.bind]
    rw [ho]
    rfl
  | layer =>
    obtain ⟨ns, es, hn, he, ho⟩ := hk
    simp only [readKind, saltLayer, hcm, bind, Except.bind, numbers_eq hn, numbers_eq he]
    rw [ho]
    rfl

theorem inOrder_of_read {e : SXml} (h : e.OnlyLabels) {o : SaltObj} {k : SaltKind} (ho : readKind k e = .ok o) : o.inOrder = o := by
  have hs := read_says h ho
  have := says_read h hs.1 hs.2
  rw [ho] at this
  exact (Except.ok.inj this).symm

theorem words_cons {p : Char → Bool} {w s : List Char} {ws : List (List Char)} {c : Char} (hw : w ≠ []) (hn : ∀ c ∈ w, p c = false) (hc : p c = true) (h : Words p s ws) :
    Words p (w ++ c :: s) (w :: ws) := .word hw hn (by simpa using hc) (.space hc h)

theorem words_skip {p : Char → Bool} {s : List Char} {ws : List (List Char)} (h : Words p s ws) : ∀ {pre : List Char}, (∀ c ∈ pre, p c = true) → Words p (pre ++ s) ws
  | [], _ => h
  | c :: pre, hp => .space (hp c (.head _)) (words_skip h (fun c hc => hp c (.tail _ hc)))

theorem words_join {p : Char → Bool} (hb : p ' ' = true) : ∀ {ps : List (List Char)}, (∀ w ∈ ps, w ≠ [] ∧ ∀ c ∈ w, p c = false) → Words p (joinChars [' '] ps) ps
  | [], _ => .nil
  | [w], h => by
    have := h w (by simp)
    simpa [joinChars] using Words.word this.1 this.2 (by simp) (Words.nil (p := p))
  | w :: v :: ps, h => by
    have hw := h w (by simp)
    have ih := words_join hb (ps := v :: ps) (fun x hx => h x (.tail _ hx))
    show Words p (w ++ [' '] ++ joinChars [' '] (v :: ps)) _
    rw [List.append_assoc]
    exact words_cons hw.1 hw.2 hb ih

theorem words_numbers {p : Char → Bool} (hb : p ' ' = true) (pre : List Char) (hpre : ∀ c ∈ pre, p c = true) : ∀ {ps : List (List Char)}, (∀ w ∈ ps, w ≠ [] ∧ ∀ c ∈ w, p c = false) →
    Words p (joinChars [' '] (ps.map (pre ++ ·))) ps
  | [], _ => .nil
  | [w], h => by
    have := h w (by simp)
    have h1 := Words.word this.1 this.2 (by simp) (Words.nil (p := p))
    rw [List.append_nil] at h1
    exact words_skip h1 hpre
  | w :: v :: ps, h => by
    have hw := h w (by simp)
    have ih := words_numbers hb pre hpre (ps := v :: ps) (fun x hx => h x (.tail _ hx))
    show Words p (pre ++ w ++ [' '] ++ joinChars [' '] (List.map (pre ++ ·) (v :: ps))) _
    rw [List.append_assoc, List.append_assoc]
    exact words_skip (words_cons hw.1 hw.2 hb ih) hpre

/-- characters of a decimal number are no white space -/
theorem decimalInt_chars (i : Int) : ∀ c ∈ decimalInt i, isUniSpace c = false := by
  have hd : ∀ n, ∀ c ∈ decimal n, isUniSpace c = false := by
    intro n c hc
    have h := decimal_digits n c hc
    unfold isDigitChar at h
    simp only [Bool.and_eq_true, decide_eq_true_eq] at h
    have h1 : 48 ≤ c.toNat := h.1
    have h2 : c.toNat ≤ 57 := h.2
    have : c = Char.ofNat c.toNat := by simp
    rw [this]
    generalize c.toNat = m at h1 h2
    have : m = 48 ∨ m = 49 ∨ m = 50 ∨ m = 51 ∨ m = 52 ∨ m = 53 ∨ m = 54 ∨ m = 55 ∨ m = 56 ∨ m = 57 := by omega
    rcases this with rfl | rfl | rfl | rfl | rfl | rfl | rfl | rfl | rfl | rfl <;> decide
  cases i with
  | ofNat n => exact hd n
  | negSucc n =>
    intro c hc
    rcases List.mem_cons.1 hc with rfl | hc
    · decide
    · exact hd _ c hc

theorem refTo_written (kind : String) (hk : '.' ∉ kind.toList) (i : Int) : SaltRefTo ("//@".toList ++ (kind.toList ++ '.' :: decimalInt i)) i := by
  refine ⟨"//@".toList ++ kind.toList, decimalInt i, by simp, ?_, dot_decimalInt i, pyInt_decimalInt i⟩
  intro h
  rcases List.mem_append.1 h with h | h
  · exact absurd h (by decide)
  · exact hk h

theorem refs_written {e : SXml} {k kind : String} {ids : List Int} (hk : '.' ∉ kind.toList) (hs : ∀ c ∈ kind.toList, isUniSpace c = false) (h : find e.attrs k = some (saltRefs kind ids)) :
    e.RefersTo k ids := by
  refine .inr ⟨_, ids.map (fun i => "//@".toList ++ (kind.toList ++ '.' :: decimalInt i)), h, ?_, ?_⟩
  · unfold saltRefs
    rw [String.toList_ofList]
    refine words_join (by decide) ?_
    intro w hw
    obtain ⟨i, _, rfl⟩ := List.mem_map.1 hw
    refine ⟨by simp, ?_⟩
    intro c hc
    rcases List.mem_append.1 hc with hc | hc
    · exact (show ∀ c ∈ "//@".toList, isUniSpace c = false by decide) c hc
    · rcases List.mem_append.1 hc with hc | hc
      · exact hs c hc
      · rcases List.mem_cons.1 hc with rfl | hc
        · decide
        · exact decimalInt_chars i c hc
  · rw [List.forall₂_map_left_iff]
    exact List.forall₂_same.2 (fun i _ => refTo_written kind hk i)

theorem ref_written {e : SXml} {k kind : String} {i : Int} (hk : '.' ∉ kind.toList) (h : find e.attrs k = some (saltRefs kind [i])) : e.RefersToOne k i := by
  refine ⟨_, h, ?_⟩
  unfold saltRefs
  rw [String.toList_ofList]
  exact refTo_written kind hk i

theorem numbers_written {e : SXml} {k kind : String} {ns : List Nat} (hk : ∀ c ∈ kind.toList, isDigitChar c = false) (h : find e.attrs k = some (saltRefs kind (ns.map Int.ofNat))) :
    e.HasNumbers k ns := by
  refine ⟨ns.map decimal, ?_, ?_⟩
  · rw [h]
    show Words _ (saltRefs kind (ns.map Int.ofNat)).toList _
    unfold saltRefs
    rw [String.toList_ofList, List.map_map]
    have he : ns.map ((fun i => "//@".toList ++ (kind.toList ++ '.' :: decimalInt i)) ∘ Int.ofNat) = (ns.map decimal).map (("//@".toList ++ (kind.toList ++ ['.'])) ++ ·) := by
      rw [List.map_map]
      refine List.map_congr_left ?_
      intro n _
      simp [decimalInt]
    rw [he]
    refine words_numbers (by decide) _ ?_ ?_
    · intro c hc
      rcases List.mem_append.1 hc with hc | hc
      · exact (show ∀ c ∈ "//@".toList, (!isDigitChar c) = true by decide) c hc
      · rcases List.mem_append.1 hc with hc | hc
        · rw [hk c hc]
          rfl
        · rw [List.mem_singleton.1 hc]
          decide
    · intro w hw
      obtain ⟨n, _, rfl⟩ := List.mem_map.1 hw
      refine ⟨decimal_ne_nil n, fun c hc => ?_⟩
      rw [decimal_digits n c hc]
      rfl
  · rw [List.map_map]
    refine (List.map_id ns).symm.trans (List.map_congr_left ?_)
    intro n _
    exact (parseDec_decimal n).symm

end Dg
