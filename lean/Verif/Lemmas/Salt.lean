import Verif.Spec.Salt
import Verif.Lemmas.Words
import Verif.Lemmas.ConanoWords
import Verif.Lemmas.Chains
import Verif.Lemmas.Forall2
import Verif.Lemmas.RstLatexTree
import Verif.Props.C28
import Verif.Props.C64

namespace Dg
open Dict
open DG (mapE mapE_ok bind_ok_iff)

/-- all children are labels -/
def SXml.OnlyLabels (e : SXml) : Prop := ∀ c ∈ e.children, c.tag = "labels"

theorem attrib_ok {e : SXml} {k v : String} : e.attrib k = .ok v ↔ find e.attrs k = some v := by
  unfold SXml.attrib
  split
  · rename_i w h
    rw [h]
    simp
  · rename_i h
    rw [h]
    simp

theorem getXsiType_ok {e : SXml} {v : String} : getXsiType e = .ok v ↔ find e.attrs xsiType = some v := by
  unfold getXsiType
  split
  · rename_i w h
    rw [h]
    simp
  · rename_i h
    rw [h]
    simp

theorem nonEmpty_some {x : Option String} {s : String} : nonEmpty x = some s ↔ x = some s ∧ s ≠ "" := by
  unfold nonEmpty
  split
  · constructor
    · intro h; cases h
    · rintro ⟨h, h2⟩
      cases h
      exact absurd rfl h2
  · rename_i h
    constructor
    · intro e
      refine ⟨e, ?_⟩
      rintro rfl
      exact h e
    · exact And.left

theorem new_says (name value xsi : String) (ns : Option String) (h : String) : (SaltLabel.new name value xsi ns (some h)).hex = if h = "" then string2xmihex value else h := by
  unfold SaltLabel.new
  dsimp only
  by_cases e : h = ""
  · subst e
    rfl
  · rw [if_neg e, show nonEmpty (some h) = some h from nonEmpty_some.2 ⟨rfl, e⟩]

theorem label_says {e : SXml} {l : SaltLabel} : SaltLabel.fromEtree e = .ok l ↔ e.SaysLabel l := by
  unfold SaltLabel.fromEtree
  simp only [bind_ok_iff, attrib_ok, getXsiType_ok]
  constructor
  · rintro ⟨n, hn, v, hv, t, ht, h, hh, he⟩
    cases he
    refine ⟨hn, hv, ht, fun s => nonEmpty_some, h, hh, ?_, ?_⟩
    · intro hne
      rw [new_says, if_neg hne]
    · rintro rfl
      rw [new_says, if_pos rfl]
      rfl
  · rintro ⟨hn, hv, ht, hs, h, hh, h1, h2⟩
    refine ⟨_, hn, _, hv, _, ht, h, hh, ?_⟩
    have e1 : nonEmpty (find e.attrs "namespace") = l.ns := by
      cases hl : l.ns with
      | none =>
        cases hx : nonEmpty (find e.attrs "namespace") with
        | none => rfl
        | some s =>
          rw [(hs s).2 (nonEmpty_some.1 hx)] at hl
          cases hl
      | some s => exact nonEmpty_some.2 ((hs s).1 hl)
    have e2 : (SaltLabel.new l.name l.value l.xsiType (find e.attrs "namespace") (some h)).hex = l.hex := by
      rw [new_says]
      split
      · rename_i hx
        exact (h2 hx).symm
      · rename_i hx
        exact (h1 hx).symm
    have : SaltLabel.new l.name l.value l.xsiType (find e.attrs "namespace") (some h) = ⟨l.name, l.value, l.xsiType, nonEmpty (find e.attrs "namespace"), (SaltLabel.new l.name l.value l.xsiType (find e.attrs "namespace") (some h)).hex⟩ := rfl
    rw [this, e1, e2]

/-- a label as it is after construction -/
def SaltLabel.Normal (l : SaltLabel) : Prop := l.ns ≠ some "" ∧ (l.hex = "" → string2xmihex l.value = "")

theorem normal_of_says {e : SXml} {l : SaltLabel} (h : e.SaysLabel l) : l.Normal := by
  obtain ⟨hn, hv, ht, hs, x, hh, h1, h2⟩ := h
  refine ⟨fun e => ((hs _).1 e).2 rfl, fun e => ?_⟩
  by_cases hx : x = ""
  · rw [← h2 hx, e]
  · exact absurd ((h1 hx).symm.trans e) hx

theorem normal_new (name value xsi : String) (ns hex : Option String) : (SaltLabel.new name value xsi ns hex).Normal := by
  refine ⟨fun e => (nonEmpty_some.1 e).2 rfl, ?_⟩
  unfold SaltLabel.new
  dsimp only
  split
  · rename_i h e
    intro e'
    exact absurd e' (nonEmpty_some.1 e).2
  · exact id

theorem xsi_ne {k : String} (h : k ∈ ["name", "value", "valueString", "namespace", "layers", "source", "target", "nodes", "edges"]) : xsiType ≠ k := by
  simp only [List.mem_cons, List.not_mem_nil, or_false] at h
  rcases h with rfl | rfl | rfl | rfl | rfl | rfl | rfl | rfl | rfl <;> decide

theorem label_find (l : SaltLabel) (k : String) : find l.toEtree.attrs k =
    if xsiType = k then some l.xsiType else if "namespace" = k then l.ns else if "name" = k then some l.name else if "value" = k then some l.hex else if "valueString" = k then some l.value else none := by
  unfold SaltLabel.toEtree
  cases hl : l.ns with
  | none =>
    simp only [SXml.attrs, List.append_nil, List.cons_append, List.nil_append, find_cons]
    by_cases h1 : xsiType = k
    · rw [if_pos h1, if_pos h1]
    · rw [if_neg h1, if_neg h1]
      by_cases h2 : "namespace" = k
      · subst h2
        simp
      · rw [if_neg h2]
        rfl
  | some n =>
    simp only [SXml.attrs, List.append_nil, List.cons_append, List.nil_append, find_cons]
    rfl

theorem label_written (l : SaltLabel) (h : l.Normal) : l.toEtree.SaysLabel l := by
  obtain ⟨h1, h2⟩ := h
  refine ⟨?_, ?_, ?_, fun s => ?_, l.hex, ?_, fun _ => rfl, fun e => ?_⟩
  · rw [label_find, if_neg (xsi_ne (by simp))]
    simp
  · rw [label_find, if_neg (xsi_ne (by simp))]
    simp
  · rw [label_find, if_pos rfl]
  · rw [label_find, if_neg (xsi_ne (by simp)), if_pos rfl]
    constructor
    · intro e
      refine ⟨e, ?_⟩
      rintro rfl
      exact h1 e
    · exact And.left
  · rw [label_find, if_neg (xsi_ne (by simp))]
    simp
  · rw [e]
    exact (h2 e).symm

theorem toEtree_tag (l : SaltLabel) : l.toEtree.tag = "labels" := rfl

theorem labels_written {ls : List SaltLabel} (h : ∀ l ∈ ls, l.Normal) : List.Forall₂ SXml.SaysLabel (ls.map SaltLabel.toEtree) ls := by
  rw [List.forall₂_map_left_iff]
  refine List.forall₂_same.2 ?_
  intro l hl
  exact label_written l (h l hl)

theorem sub_labels {e : SXml} (h : e.OnlyLabels) : saltSub e "labels" = e.children := by
  unfold saltSub
  rw [List.filter_eq_self]
  intro c hc
  simpa using h c hc

theorem labels_read {e : SXml} (h : e.OnlyLabels) {ls : List SaltLabel} : mapE SaltLabel.fromEtree (saltSub e "labels") = .ok ls ↔ List.Forall₂ SXml.SaysLabel e.children ls := by
  rw [sub_labels h, mapE_ok]
  constructor <;> intro h' <;> exact forall₂_mem_imp h' (fun _ _ _ _ => by first | exact label_says.1 | exact label_says.2)

theorem find_labels {name : String} : ∀ {cs : List SXml} {ls : List SaltLabel}, (∀ c ∈ cs, c.tag = "labels") → List.Forall₂ SXml.SaysLabel cs ls →
    (cs.find? (fun c => decide (c.tag = "labels" ∧ find c.attrs "name" = some name)) = none ∧ firstLabel ls name = none) ∨
    ∃ c l, cs.find? (fun c => decide (c.tag = "labels" ∧ find c.attrs "name" = some name)) = some c ∧ c.SaysLabel l ∧ firstLabel ls name = some l.value
  | [], [], _, .nil => .inl ⟨rfl, rfl⟩
  | c :: cs, l :: ls, ht, .cons h hs => by
    have ih := find_labels (name := name) (fun c hc => ht c (.tail _ hc)) hs
    by_cases hn : l.name = name
    · right
      refine ⟨c, l, ?_, h, ?_⟩
      · rw [List.find?_cons_of_pos]
        simpa using ⟨ht c (.head _), by rw [h.name, hn]⟩
      · unfold firstLabel
        rw [List.find?_cons_of_pos (by simpa using hn)]
        rfl
    · have e1 : (c :: cs).find? (fun c => decide (c.tag = "labels" ∧ find c.attrs "name" = some name)) = cs.find? (fun c => decide (c.tag = "labels" ∧ find c.attrs "name" = some name)) := by
        rw [List.find?_cons_of_neg]
        simp only [decide_eq_true_eq, not_and]
        intro _ e
        rw [h.name] at e
        exact hn (Option.some.inj e)
      have e2 : firstLabel (l :: ls) name = firstLabel ls name := by
        unfold firstLabel
        rw [List.find?_cons_of_neg (by simpa using hn)]
      rw [e1, e2]
      exact ih

theorem labelValue_eq {e : SXml} (h : e.OnlyLabels) {ls : List SaltLabel} (hs : List.Forall₂ SXml.SaysLabel e.children ls) (name : String) :
    saltLabelValue (saltFindLabel e name) = match firstLabel ls name with | some v => .ok v | none => .error .attribute := by
  unfold saltFindLabel
  rcases find_labels (name := name) h hs with ⟨h1, h2⟩ | ⟨c, l, h1, h2, h3⟩
  · rw [h1, h2]
    rfl
  · rw [h1, h3]
    unfold saltLabelValue
    dsimp only
    rw [h2.value]

theorem elementId_eq {e : SXml} (h : e.OnlyLabels) {ls : List SaltLabel} (hs : List.Forall₂ SXml.SaysLabel e.children ls) : saltElementId e = .ok (firstLabel ls "id") := by
  unfold saltElementId saltFindLabel
  rcases find_labels (name := "id") h hs with ⟨h1, h2⟩ | ⟨c, l, h1, h2, h3⟩
  · rw [h1, h2]
  · rw [h1, h3]
    dsimp only
    rw [attrib_ok.2 h2.value]
    rfl

/-- the annotations, from left to right -/
def annotate : Dict String String → List SaltLabel → Dict String String
  | d, [] => d
  | d, l :: ls => annotate (if l.xsiType = sAnnotation then put d l.name l.value else d) ls

theorem annotations_eq : ∀ {cs : List SXml} {ls : List SaltLabel} (d : Dict String String), List.Forall₂ SXml.SaysLabel cs ls → saltAnnotations d cs = .ok (annotate d ls)
  | _, _, _, .nil => rfl
  | _, _, d, .cons (a := c) (b := l) (l₁ := cs) (l₂ := ls) h hs => by
    unfold saltAnnotations annotate
    rw [getXsiType_ok.2 h.type]
    simp only [bind, Except.bind]
    split
    · have : saltAnnotation c = .ok (l.name, l.value) := by
        unfold saltAnnotation
        rw [attrib_ok.2 h.name, attrib_ok.2 h.value]
        rfl
      rw [this]
      exact annotations_eq _ hs
    · exact annotations_eq _ hs

theorem find_annotate (k : String) : ∀ (ls : List SaltLabel) (d : Dict String String), find (annotate d ls) k = (match lastAnnotation ls k with | some v => some v | none => find d k)
  | [], _ => rfl
  | l :: ls, d => by
    unfold annotate
    rw [find_annotate k ls]
    have hla : lastAnnotation (l :: ls) k = match lastAnnotation ls k with | some v => some v | none => if l.xsiType = sAnnotation ∧ l.name = k then some l.value else none := by
      unfold lastAnnotation
      rw [List.filter_cons]
      by_cases hc : l.xsiType = sAnnotation ∧ l.name = k
      · rw [if_pos (show (decide _) = true by exact decide_eq_true hc), if_pos hc]
        generalize ls.filter _ = r
        cases r with
        | nil => rfl
        | cons x xs =>
          rw [List.getLast?_cons_cons]
          cases hx : (x :: xs).getLast? with
          | none => simp at hx
          | some y => rfl
      · rw [if_neg (show ¬ (decide _) = true by intro h; exact hc (of_decide_eq_true h)), if_neg hc]
        generalize ls.filter _ = r
        cases r.getLast? <;> rfl
    rw [hla]
    cases lastAnnotation ls k with
    | some v => rfl
    | none =>
      dsimp only
      by_cases hc : l.xsiType = sAnnotation
      · rw [if_pos hc]
        by_cases hk : l.name = k
        · subst hk
          rw [if_pos ⟨hc, rfl⟩, find_put_self]
        · rw [if_neg (fun h => hk h.2), find_put_ne]
          exact hk
      · rw [if_neg hc, if_neg (fun h => hc h.1)]

theorem annotationsOf_annotate (ls : List SaltLabel) : AnnotationsOf ls (annotate [] ls) := by
  intro k
  rw [find_annotate]
  cases lastAnnotation ls k <;> rfl

/-- the common part of an object -/
def commonOf (xsi : Except PyErr String) (ls : List SaltLabel) : Except PyErr SaltObj := do
  let name ← (match firstLabel ls "SNAME" with | some v => .ok v | none => .error .attribute)
  let xsi ← xsi
  .ok { cls := .element, name := name, elementId := firstLabel ls "id", xsi := xsi, labels := ls }

theorem saltElement_eq {e : SXml} (h : e.OnlyLabels) {ls : List SaltLabel} (hs : List.Forall₂ SXml.SaysLabel e.children ls) : saltElement e = commonOf (getXsiType e) ls := by
  unfold saltElement commonOf saltElementName
  rw [(labels_read h).2 hs, labelValue_eq h hs, elementId_eq h hs]
  cases firstLabel ls "SNAME" <;> rfl

theorem saltElement_ok {e : SXml} (h : e.OnlyLabels) {o : SaltObj} : saltElement e = .ok o ↔
    List.Forall₂ SXml.SaysLabel e.children o.labels ∧ firstLabel o.labels "SNAME" = some o.name ∧ firstLabel o.labels "id" = o.elementId ∧ find e.attrs xsiType = some o.xsi ∧ o = o.common := by
  constructor
  · intro ho
    have hl : ∃ ls, List.Forall₂ SXml.SaysLabel e.children ls := by
      unfold saltElement at ho
      simp only [bind_ok_iff] at ho
      obtain ⟨ls, hls, _⟩ := ho
      exact ⟨ls, (labels_read h).1 hls⟩
    obtain ⟨ls, hls⟩ := hl
    rw [saltElement_eq h hls] at ho
    unfold commonOf at ho
    cases hn : firstLabel ls "SNAME" with
    | none => rw [hn] at ho; cases ho
    | some n =>
      rw [hn] at ho
      simp only [bind_ok_iff, getXsiType_ok] at ho
      obtain ⟨_, he, x, hx, ho⟩ := ho
      cases he
      cases ho
      exact ⟨hls, hn, rfl, hx, rfl⟩
  · rintro ⟨hls, hn, hid, hx, ho⟩
    rw [saltElement_eq h hls]
    unfold commonOf
    rw [hn, getXsiType_ok.2 hx, hid]
    exact congrArg Except.ok ho.symm

theorem dot_decimalInt (i : Int) : '.' ∉ decimalInt i := by
  cases i with
  | ofNat n => exact fun h => absurd (decimal_digits n _ h) (by decide)
  | negSucc n =>
    intro h
    unfold decimalInt at h
    rcases List.mem_cons.1 h with h | h
    · exact absurd h (by decide)
    · exact absurd (decimal_digits _ _ h) (by decide)

theorem pyInt_decimalInt (i : Int) : pyInt (decimalInt i) = some i := by
  cases i with
  | ofNat n => exact pyInt_decimal n
  | negSucc n =>
    have hd := decimal_digits (n + 1)
    have hs : pyStrip ('-' :: decimal (n + 1)) = '-' :: decimal (n + 1) := by
      have hrev : ((decimal (n + 1)).reverse ++ ['-']).dropWhile isSpaceChar = (decimal (n + 1)).reverse ++ ['-'] := by
        cases hr : (decimal (n + 1)).reverse with
        | nil => rfl
        | cons x xs =>
          have hx : isDigitChar x = true := hd x (by rw [← List.mem_reverse, hr]; simp)
          have : isSpaceChar x = false := by
            unfold isSpaceChar
            have hne := fun d (hd : isDigitChar d = false) => digit_ne hx hd
            simp [hne ' ' (by decide), hne '\t' (by decide), hne '\n' (by decide), hne '\r' (by decide), hne '\x0b' (by decide), hne '\x0c' (by decide)]
          simp [List.dropWhile, this]
      unfold pyStrip
      rw [show ('-' :: decimal (n + 1)).dropWhile isSpaceChar = '-' :: decimal (n + 1) by rfl, List.reverse_cons, hrev]
      simp
    have hn : pyNat (decimal (n + 1)) = some (n + 1) := by
      unfold pyNat
      rw [if_pos ⟨decimal_ne_nil _, by simpa using hd⟩, parseDec_decimal]
    unfold pyInt decimalInt
    rw [hs]
    simp only [hn]
    rfl

theorem ref_iff {s : List Char} {i : Int} : saltRef s = .ok i ↔ SaltRefTo s i := by
  unfold saltRef SaltRefTo
  constructor
  · intro h
    split at h
    · rename_i a b hs
      have hj := joinChars_splitChars '.' s
      rw [hs] at hj
      have ha : '.' ∉ a := splitChars_mem '.' s a (by rw [hs]; simp)
      have hb : '.' ∉ b := splitChars_mem '.' s b (by rw [hs]; simp)
      refine ⟨a, b, ?_, ha, hb, ?_⟩
      · rw [← hj]
        simp [joinChars]
      · unfold intOrError at h
        split at h
        · rename_i j hj
          cases h
          exact hj
        · cases h
    · cases h
  · rintro ⟨p, d, rfl, hp, hd, hi⟩
    rw [splitChars_append_sep _ _ hp, splitChars_no_sep _ _ hd]
    unfold intOrError
    dsimp only
    rw [hi]

theorem layerIds_iff {e : SXml} {ids : List Int} : saltLayerIds e = .ok ids ↔ e.RefersTo "layers" ids := by
  unfold saltLayerIds SXml.RefersTo
  cases h : find e.attrs "layers" with
  | none =>
    constructor
    · intro e; cases e; exact .inl ⟨rfl, rfl⟩
    · rintro (⟨_, rfl⟩ | ⟨_, _, h, _⟩)
      · rfl
      · cases h
  | some s =>
    dsimp only
    rw [mapE_ok, splitWs_splitBy]
    constructor
    · intro h
      exact .inr ⟨s, _, rfl, splitBy_words _ _, forall₂_mem_imp h (fun _ _ _ _ => ref_iff.1)⟩
    · rintro (⟨h, _⟩ | ⟨s', ws, h, hw, hf⟩)
      · cases h
      · cases h
        rw [splitBy_of_words hw]
        exact forall₂_mem_imp hf (fun _ _ _ _ => ref_iff.2)

theorem nodeId_iff {e : SXml} {k : String} {i : Int} : saltNodeId e k = .ok i ↔ e.RefersToOne k i := by
  unfold saltNodeId SXml.RefersToOne
  simp only [bind_ok_iff, attrib_ok, ref_iff]

theorem numbers_says (e : SXml) (k : String) : e.HasNumbers k (saltNumbers e k) := by
  unfold saltNumbers SXml.HasNumbers
  cases find e.attrs k with
  | none => exact ⟨[], .nil, rfl⟩
  | some s => exact ⟨_, splitBy_words _ _, rfl⟩

theorem numbers_eq {e : SXml} {k : String} {ns : List Nat} (h : e.HasNumbers k ns) : saltNumbers e k = ns := by
  obtain ⟨ws, hw, rfl⟩ := h
  unfold saltNumbers
  cases hf : find e.attrs k with
  | none =>
    rw [hf] at hw
    have : ws = [] := Words.unique hw .nil
    rw [this]
    rfl
  | some s =>
    rw [hf] at hw
    exact congrArg (List.map parseDec) (splitBy_of_words hw)

end Dg
