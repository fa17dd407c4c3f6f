import Verif.Lemmas.RstDecl

/-! The reader as a sequence of events. -/

namespace Dg
open Dict
namespace DG

/-- the events of an element -/
def evsOf (x : Rs3Xml) : List RstEv := RstEv.decl x :: (match x.parent with | none => [] | some p => [RstEv.link x p])

/-- the events of a file: first the segments, then the groups -/
def rstEvents (doc : Rs3Doc) : List RstEv := (doc.elems.filter Rs3Xml.isSegment).flatMap evsOf ++ (doc.elems.filter (fun x => !x.isSegment)).flatMap evsOf

/-- all events -/
def execEvs (rels : Dict (List Char) (List Char)) (g : DG) (evs : List RstEv) : Except PyErr DG := evs.foldlM (RstEv.exec rels) g

theorem execEvs_sees {ns : String} {rels : Dict (List Char) (List Char)} {g : DG} (h : Sees g (evView ns rels [])) {evs : List RstEv} (he : EvsOk ns evs) :
    ∃ g', execEvs rels g evs = .ok g' ∧ Sees g' (evView ns rels evs) := by
  induction he with
  | nil => exact ⟨g, rfl, h⟩
  | @snoc evs e hevs he ih =>
    obtain ⟨g1, e1, s1⟩ := ih
    have : ∃ g', e.exec rels g1 = .ok g' ∧ Sees g' (evView ns rels (evs ++ [e])) := by
      cases e with
      | decl x => exact step_decl s1 hevs he
      | link x p => exact step_link s1 he
    obtain ⟨g2, e2, s2⟩ := this
    refine ⟨g2, ?_, s2⟩
    unfold execEvs at e1 ⊢
    rw [List.foldlM_append, e1]
    show (RstEv.exec rels g1 e >>= pure) = _
    rw [e2]; rfl

theorem evView_nil (ns : String) (rels : Dict (List Char) (List Char)) (name : String) : Sees { init "" ns none with name := name } (evView ns rels []) := by
  refine (sees_init name ns).congr rfl rfl rfl rfl ?_ ?_ ?_ (List.Perm.refl _)
  · intro m
    simp [evView, facts, rootAfter, declared, View.new, docRoot]
  · intro m k hk
    simp only [evView, facts, rootAfter, declared, declOf, View.new, docRoot, List.foldl, List.find?, Option.map]
    have q : ∀ s, "metadata" ≠ qual ns s := fun s h => qual_ne_plain (by decide) h.symm
    by_cases k1 : k = qual ns "segment_type"
    · simp [k1, Ne.symm (q _)]
    · by_cases k2 : k = qual ns "rel_name"
      · simp [k2, Ne.symm (q _)]
      · by_cases k3 : k = "metadata"
        · simp [k3, q]
        · simp [k1, k2, k3]
  · intro m l
    simp only [evView, facts, rootAfter, declared, declOf, View.new, docRoot, List.foldl, List.find?]
    simp [and_comm]

/-- every parent is a node afterwards -/
theorem known_link {ns : String} {rels : Dict (List Char) (List Char)} (evs : List RstEv) (x : Rs3Xml) (p : List Char) (h : RstEv.link x p ∈ evs) : (facts ns rels evs (rstId ns p)).known = true := by
  induction evs using List.reverseRecOn with
  | nil => cases h
  | append_singleton evs e ih =>
    rcases List.mem_append.1 h with h | h
    · exact known_mono evs e _ (ih h)
    · rw [List.mem_singleton] at h
      subst h
      rw [facts_snoc]
      simp only [factStep, if_true]
      split
      · split
        · rfl
        · assumption
      · rfl

theorem known_cases {ns : String} {rels : Dict (List Char) (List Char)} (evs : List RstEv) (m : NodeId) (h : (facts ns rels evs m).known = true) : (∃ x, RstEv.decl x ∈ evs ∧ m = rstId ns x.id) ∨ ∃ x p, RstEv.link x p ∈ evs ∧ m = rstId ns p := by
  induction evs using List.reverseRecOn with
  | nil => cases h
  | append_singleton evs e ih =>
    have hm : (facts ns rels evs m).known = true → (∃ x, RstEv.decl x ∈ evs ++ [e] ∧ m = rstId ns x.id) ∨ ∃ x p, RstEv.link x p ∈ evs ++ [e] ∧ m = rstId ns p := by
      intro hk
      rcases ih hk with ⟨x, h1, h2⟩ | ⟨x, p, h1, h2⟩
      · exact .inl ⟨x, List.mem_append_left _ h1, h2⟩
      · exact .inr ⟨x, p, List.mem_append_left _ h1, h2⟩
    rw [facts_snoc] at h
    cases e with
    | decl x =>
      by_cases hx : rstId ns x.id = m
      · exact .inl ⟨x, by simp, hx.symm⟩
      · simp only [factStep, if_neg hx] at h
        exact hm h
    | link x p =>
      by_cases hx : rstId ns p = m
      · exact .inr ⟨x, p, by simp, hx.symm⟩
      · simp only [factStep, if_neg hx] at h
        exact hm h

theorem mem_declared {evs : List RstEv} {x : Rs3Xml} : x ∈ declared evs ↔ RstEv.decl x ∈ evs := by
  induction evs with
  | nil => simp [declared]
  | cons e evs ih => cases e <;> simp [declared, ih]

theorem declared_evsOf (xs : List Rs3Xml) : declared (xs.flatMap evsOf) = xs := by
  induction xs with
  | nil => rfl
  | cons x xs ih =>
    rw [List.flatMap_cons, declared_append, ih]
    unfold evsOf
    cases x.parent <;> simp [declared]

theorem evsOk_append {ns : String} {evs : List RstEv} (h : EvsOk ns evs) {xs : List Rs3Xml}
    (hid : ((declared evs ++ xs).map Rs3Xml.id).Nodup) (hdr : ∀ x ∈ xs, rstId ns x.id ≠ docRoot ns) (hty : ∀ x ∈ xs, x.kind ≠ .group none)
    (hroot : (declared evs ++ xs).Pairwise (fun x y => ¬ (x.isRoot = true ∧ y.isRoot = true))) (hp : ∀ x ∈ xs, ∀ p, x.parent = some p → x.relname.isSome ∧ rstId ns p ≠ docRoot ns) : EvsOk ns (evs ++ xs.flatMap evsOf) := by
  induction xs generalizing evs with
  | nil => simpa using h
  | cons x xs ih =>
    have h1 : EvOk ns evs (.decl x) := by
      refine ⟨?_, hdr x (by simp), hty x (by simp), ?_⟩
      · intro hm
        rw [List.map_append, List.nodup_append] at hid
        exact hid.2.2 _ hm _ (by simp) rfl
      · intro hr y hy hy'
        rw [List.pairwise_append] at hroot
        exact hroot.2.2 y hy x (by simp) ⟨hy', hr⟩
    have h2 : EvsOk ns (evs ++ evsOf x) := by
      unfold evsOf
      cases hpx : x.parent with
      | none => exact .snoc h h1
      | some p =>
        have := EvsOk.snoc (EvsOk.snoc h h1) (e := .link x p) ⟨by rw [declared_append]; simp [declared], hpx, (hp x (by simp) p hpx).1, (hp x (by simp) p hpx).2⟩
        rw [List.append_assoc] at this
        exact this
    have hde : declared (evs ++ evsOf x) = declared evs ++ [x] := by
      rw [declared_append]
      unfold evsOf
      cases x.parent <;> simp [declared]
    rw [List.flatMap_cons, ← List.append_assoc]
    refine ih h2 ?_ (fun y hy => hdr y (by simp [hy])) (fun y hy => hty y (by simp [hy])) ?_ (fun y hy => hp y (by simp [hy]))
    · rw [hde, List.append_assoc]; exact hid
    · rw [hde, List.append_assoc]; exact hroot

theorem rstOrder_perm (doc : Rs3Doc) : (rstOrder doc).Perm doc.elems := by
  have := List.filter_append_perm Rs3Xml.isSegment doc.elems
  simpa [rstOrder] using this

theorem rstEvents_eq (doc : Rs3Doc) : rstEvents doc = (rstOrder doc).flatMap evsOf := by
  unfold rstEvents rstOrder
  rw [List.flatMap_append]

theorem mem_rstOrder {doc : Rs3Doc} {x : Rs3Xml} : x ∈ rstOrder doc ↔ x ∈ doc.elems := (rstOrder_perm doc).mem_iff

theorem id_ne_root {ns : String} {doc : Rs3Doc} (h : doc.ReadOk) {x : Rs3Xml} (hx : x ∈ doc.elems) : rstId ns x.id ≠ docRoot ns := by
  intro e
  have := qual_inj (NodeId.str.inj e)
  apply h.noRoot x hx
  have h2 := congrArg String.toList this
  rw [String.toList_ofList] at h2
  rw [h2]
  rfl

theorem rstEvents_ok {ns : String} {doc : Rs3Doc} (h : doc.ReadOk) : EvsOk ns (rstEvents doc) := by
  rw [rstEvents_eq]
  have hp := rstOrder_perm doc
  have := evsOk_append (ns := ns) (evs := []) .nil (xs := rstOrder doc) ?_ ?_ ?_ ?_ ?_
  · simpa using this
  · simp only [declared, List.nil_append]
    exact (hp.map _).nodup_iff.2 h.unique
  · intro x hx
    exact id_ne_root h (mem_rstOrder.1 hx)
  · intro x hx
    exact h.type x (mem_rstOrder.1 hx)
  · simp only [declared, List.nil_append]
    have hnd : (rstOrder doc).Nodup := hp.nodup_iff.2 (List.Nodup.of_map _ h.unique)
    refine (List.nodup_iff_pairwise_ne.1 hnd).imp_of_mem ?_
    rintro x y hx hy hne ⟨h1, h2⟩
    exact hne (h.root x (mem_rstOrder.1 hx) y (mem_rstOrder.1 hy) h1 h2)
  · intro x hx p hpx
    refine ⟨h.rel x (mem_rstOrder.1 hx) (by simp [hpx]), ?_⟩
    obtain ⟨y, hy, rfl⟩ := h.parent x (mem_rstOrder.1 hx) p hpx
    exact id_ne_root h hy

theorem evsOk_inv {ns : String} {evs : List RstEv} {e : RstEv} (h : EvsOk ns (evs ++ [e])) : EvsOk ns evs ∧ EvOk ns evs e := by
  generalize hl : evs ++ [e] = l at h
  cases h with
  | nil => simp at hl
  | @snoc evs' e' h1 h2 =>
    obtain ⟨rfl, h3⟩ := List.append_inj' hl rfl
    cases h3
    exact ⟨h1, h2⟩

theorem evsOk_prefix {ns : String} {a b : List RstEv} (h : EvsOk ns (a ++ b)) : EvsOk ns a := by
  induction b using List.reverseRecOn with
  | nil => simpa using h
  | append_singleton b e ih =>
    rw [← List.append_assoc] at h
    exact ih (evsOk_inv h).1

/-- one event -/
theorem exec_step {ns : String} {rels : Dict (List Char) (List Char)} {g : DG} {evs : List RstEv} {e : RstEv} (h : Sees g (evView ns rels evs)) (he : EvsOk ns (evs ++ [e])) :
    ∃ g', e.exec rels g = .ok g' ∧ Sees g' (evView ns rels (evs ++ [e])) := by
  obtain ⟨h1, h2⟩ := evsOk_inv he
  cases e with
  | decl x => exact step_decl h h1 h2
  | link x p => exact step_link h h2

theorem step1_ok {ns : String} {rels : Dict (List Char) (List Char)} {g : DG} {evs : List RstEv} {x : Rs3Xml} (h : Sees g (evView ns rels evs)) (he : EvsOk ns (evs ++ evsOf x)) (hx : x.isSegment = true) (es : List NodeId) :
    ∃ g', rstStep1 rels (g, es) x = .ok (g', es ++ [rstId ns x.id]) ∧ Sees g' (evView ns rels (evs ++ evsOf x)) := by
  have hsplit : evs ++ evsOf x = (evs ++ [.decl x]) ++ (match x.parent with | none => [] | some p => [RstEv.link x p]) := by simp [evsOf]
  rw [hsplit] at he ⊢
  obtain ⟨g1, e1, s1⟩ := exec_step h (evsOk_prefix he)
  cases hk : x.kind with
  | group o => simp [Rs3Xml.isSegment, hk] at hx
  | segment text =>
    simp only [RstEv.exec, hk] at e1
    unfold rstStep1
    rw [hk]
    simp only
    unfold rstAddSegment
    simp only [e1, bind, Except.bind]
    unfold rstLink
    have n0 : g.ns = ns := h.ns
    have n1 : g1.ns = ns := s1.ns
    cases hp : x.parent with
    | none =>
      refine ⟨g1, ?_, ?_⟩
      · simp only [n0]; rfl
      · simpa using s1
    | some p =>
      rw [hp] at he
      obtain ⟨g2, e2, s2⟩ := exec_step s1 he
      refine ⟨g2, ?_, s2⟩
      simp only [RstEv.exec, n1] at e2
      simp only [n0]
      rw [e2]; rfl

theorem step2_ok {ns : String} {rels : Dict (List Char) (List Char)} {g : DG} {evs : List RstEv} {x : Rs3Xml} (h : Sees g (evView ns rels evs)) (he : EvsOk ns (evs ++ evsOf x)) (hx : x.isSegment = false) :
    ∃ g', rstStep2 rels g x = .ok g' ∧ Sees g' (evView ns rels (evs ++ evsOf x)) := by
  have hsplit : evs ++ evsOf x = (evs ++ [.decl x]) ++ (match x.parent with | none => [] | some p => [RstEv.link x p]) := by simp [evsOf]
  rw [hsplit] at he ⊢
  obtain ⟨g1, e1, s1⟩ := exec_step h (evsOk_prefix he)
  cases hk : x.kind with
  | segment o => simp [Rs3Xml.isSegment, hk] at hx
  | group o =>
    unfold rstStep2
    rw [hk]
    simp only
    cases o with
    | none => simp [RstEv.exec, hk] at e1
    | some ty =>
      simp only [RstEv.exec, hk] at e1
      unfold rstAddGroup
      simp only
      have n0 : g.ns = ns := h.ns
      have n1 : g1.ns = ns := s1.ns
      simp only [n0] at e1 ⊢
      cases hn : g.rstGroupNode (rstId ns x.id) (rstGroupAttrs ns x.id ty) (rstSegmentTypes rels x).1 with
      | error e => rw [hn] at e1; cases e1
      | ok g0 =>
        rw [hn] at e1
        simp only [bind, Except.bind] at e1 ⊢
        unfold rstPlaceGroup
        cases hp : x.parent with
        | none =>
          rw [if_pos hp] at e1
          exact ⟨g1, e1, by simpa using s1⟩
        | some p =>
          rw [hp, if_neg (by simp)] at e1
          cases e1
          rw [hp] at he
          obtain ⟨g2, e2, s2⟩ := exec_step s1 he
          refine ⟨g2, ?_, s2⟩
          simp only [RstEv.exec, n1] at e2
          exact e2

theorem loop1_ok {ns : String} {rels : Dict (List Char) (List Char)} (xs : List Rs3Xml) {g : DG} {evs : List RstEv} (h : Sees g (evView ns rels evs)) (he : EvsOk ns (evs ++ (xs.filter Rs3Xml.isSegment).flatMap evsOf)) (es : List NodeId) :
    ∃ g', xs.foldlM (rstStep1 rels) (g, es) = .ok (g', es ++ (xs.filter Rs3Xml.isSegment).map (fun x => rstId ns x.id)) ∧ Sees g' (evView ns rels (evs ++ (xs.filter Rs3Xml.isSegment).flatMap evsOf)) := by
  induction xs generalizing g evs es with
  | nil => exact ⟨g, by simp; rfl, by simpa using h⟩
  | cons x xs ih =>
    rw [List.foldlM_cons]
    by_cases hx : x.isSegment = true
    · rw [List.filter_cons_of_pos hx] at he ⊢
      rw [List.flatMap_cons, ← List.append_assoc] at he ⊢
      obtain ⟨g1, e1, s1⟩ := step1_ok h (evsOk_prefix he) hx es
      obtain ⟨g2, e2, s2⟩ := ih s1 he (es ++ [rstId ns x.id])
      refine ⟨g2, ?_, s2⟩
      rw [e1]
      show List.foldlM (rstStep1 rels) (g1, es ++ [rstId ns x.id]) xs = _
      rw [e2]
      simp
    · rw [List.filter_cons_of_neg hx] at he ⊢
      have : rstStep1 rels (g, es) x = .ok (g, es) := by
        unfold rstStep1
        cases hk : x.kind with
        | segment t => simp [Rs3Xml.isSegment, hk] at hx
        | group o => rfl
      rw [this]
      exact ih h he es

theorem loop2_ok {ns : String} {rels : Dict (List Char) (List Char)} (xs : List Rs3Xml) {g : DG} {evs : List RstEv} (h : Sees g (evView ns rels evs)) (he : EvsOk ns (evs ++ (xs.filter (fun x => !x.isSegment)).flatMap evsOf)) :
    ∃ g', xs.foldlM (rstStep2 rels) g = .ok g' ∧ Sees g' (evView ns rels (evs ++ (xs.filter (fun x => !x.isSegment)).flatMap evsOf)) := by
  induction xs generalizing g evs with
  | nil => exact ⟨g, rfl, by simpa using h⟩
  | cons x xs ih =>
    rw [List.foldlM_cons]
    cases hx : x.isSegment with
    | false =>
      rw [List.filter_cons_of_pos (by simp [hx])] at he ⊢
      rw [List.flatMap_cons, ← List.append_assoc] at he ⊢
      obtain ⟨g1, e1, s1⟩ := step2_ok h (evsOk_prefix he) hx
      obtain ⟨g2, e2, s2⟩ := ih s1 he
      refine ⟨g2, ?_, s2⟩
      rw [e1]
      exact e2
    | true =>
      rw [List.filter_cons_of_neg (by simp [hx])] at he ⊢
      have : rstStep2 rels g x = .ok g := by
        unfold rstStep2
        cases hk : x.kind with
        | segment t => rfl
        | group o => simp [Rs3Xml.isSegment, hk] at hx
      rw [this]
      exact ih h he

/-- the reader without tokens -/
theorem rst2graph_ok (name ns : String) {doc : Rs3Doc} (h : doc.ReadOk) :
    ∃ g, rst2graph { init "" ns none with name := name } doc = .ok (g, (doc.elems.filter Rs3Xml.isSegment).map (fun x => rstId ns x.id)) ∧
      Sees g (evView ns (extractRelationtypes doc.rels) (rstEvents doc)) := by
  have hok := rstEvents_ok (ns := ns) h
  unfold rstEvents at hok ⊢
  obtain ⟨g1, e1, s1⟩ := loop1_ok doc.elems (evs := []) (evView_nil ns (extractRelationtypes doc.rels) name) (evsOk_prefix hok) []
  obtain ⟨g2, e2, s2⟩ := loop2_ok doc.elems s1 hok
  refine ⟨g2, ?_, s2⟩
  unfold rst2graph
  simp only [bind, Except.bind, e1, e2, List.nil_append]
  rfl

end DG
end Dg
