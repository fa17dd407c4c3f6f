import Verif.Lemmas.ExportXml

/-! The order in which the elements of an ExportXML document are read. -/

namespace Dg
open Dict

theorem XElem.ind {P : XElem → Prop} (h : ∀ t i a cs, (∀ c ∈ cs, P c) → P (.mk t i a cs)) (e : XElem) : P e :=
  XElem.rec (motive_1 := P) (motive_2 := fun l => ∀ c ∈ l, P c) (fun t i a cs ih => h t i a cs ih) (by simp) (fun _ _ h1 h2 => by simpa using ⟨h1, h2⟩) e

theorem descsL_eq (anc : List XElem) : ∀ cs : List XElem, XElem.descsL anc cs = cs.flatMap (fun c => (anc, c) :: c.descs anc)
  | [] => rfl
  | c :: cs => by rw [XElem.descsL, descsL_eq anc cs]; rfl

theorem readsL_eq (anc : List XElem) : ∀ cs : List XElem, XElem.readsL anc cs = cs.flatMap (fun c => c.reads anc)
  | [] => rfl
  | c :: cs => by rw [XElem.readsL, readsL_eq anc cs]; rfl

theorem descs_mk (anc : List XElem) (t : String) (i : Option String) (a : XAttrs) (cs : List XElem) : (XElem.mk t i a cs).descs anc = cs.flatMap (fun c => (XElem.mk t i a cs :: anc, c) :: c.descs (XElem.mk t i a cs :: anc)) := by
  rw [XElem.descs, descsL_eq]

theorem reads_mk (anc : List XElem) (t : String) (i : Option String) (a : XAttrs) (cs : List XElem) :
    (XElem.mk t i a cs).reads anc = (anc, .mk t i a cs) :: if t = "word" then cs.flatMap (fun c => c.reads (XElem.mk t i a cs :: anc)) else [] := by
  rw [XElem.reads, readsL_eq]

/-- the descendants of a descendant are descendants -/
theorem descs_trans (e : XElem) : ∀ {anc : List XElem} {r x : XRow}, r ∈ e.descs anc → x ∈ r.2.descs r.1 → x ∈ e.descs anc := by
  induction e using XElem.ind with
  | h t i a cs ih =>
    intro anc r x hr hx
    rw [descs_mk, List.mem_flatMap] at hr ⊢
    obtain ⟨c, hc, h⟩ := hr
    refine ⟨c, hc, ?_⟩
    rcases List.mem_cons.1 h with rfl | h
    · exact List.mem_cons_of_mem _ hx
    · exact List.mem_cons_of_mem _ (ih c hc h hx)

/-- the elements read with an element are the element and some of its descendants -/
theorem reads_mem (e : XElem) : ∀ {anc : List XElem} {x : XRow}, x ∈ e.reads anc → x = (anc, e) ∨ x ∈ e.descs anc := by
  induction e using XElem.ind with
  | h t i a cs ih =>
    intro anc x hx
    rw [reads_mk] at hx
    rcases List.mem_cons.1 hx with rfl | hx
    · exact .inl rfl
    · right
      split at hx
      · rw [descs_mk, List.mem_flatMap]
        obtain ⟨c, hc, h⟩ := List.mem_flatMap.1 hx
        exact ⟨c, hc, List.mem_cons.2 (ih c hc h)⟩
      · simp at hx

theorem self_reads (e : XElem) (anc : List XElem) : (anc, e) ∈ e.reads anc := by
  cases e; rw [reads_mk]; simp

/-- the rows of a document are its elements -/
theorem mem_rows {text : XElem} {r : XRow} : r ∈ text.rows ↔ r ∈ text.descs [] := by
  unfold XElem.rows
  rw [List.mem_flatMap]
  constructor
  · rintro ⟨x, hx, h⟩
    rcases reads_mem x.2 h with rfl | h
    · exact hx
    · exact descs_trans text hx h
  · intro h
    exact ⟨r, h, self_reads _ _⟩

/-- the ancestors of a descendant -/
theorem descs_anc (e : XElem) : ∀ {anc : List XElem} {r : XRow}, r ∈ e.descs anc → r.1 ≠ [] ∧ ∀ a ∈ r.1, a = e ∨ a ∈ anc ∨ ∃ rest, (rest, a) ∈ e.descs anc := by
  induction e using XElem.ind with
  | h t i a cs ih =>
    intro anc r hr
    rw [descs_mk, List.mem_flatMap] at hr
    obtain ⟨c, hc, h⟩ := hr
    rcases List.mem_cons.1 h with rfl | h
    · refine ⟨by simp, fun x hx => ?_⟩
      rcases List.mem_cons.1 hx with rfl | hx
      · exact .inl rfl
      · exact .inr (.inl hx)
    · obtain ⟨h1, h2⟩ := ih c hc h
      refine ⟨h1, fun x hx => ?_⟩
      rcases h2 x hx with rfl | hx' | ⟨rest, hx'⟩
      · refine .inr (.inr ⟨XElem.mk t i a cs :: anc, ?_⟩)
        rw [descs_mk, List.mem_flatMap]
        exact ⟨_, hc, List.mem_cons_self ..⟩
      · rcases List.mem_cons.1 hx' with rfl | hx'
        · exact .inl rfl
        · exact .inr (.inl hx')
      · refine .inr (.inr ⟨rest, ?_⟩)
        rw [descs_mk, List.mem_flatMap]
        exact ⟨c, hc, List.mem_cons_of_mem _ hx'⟩

theorem ExpOk.ancIds {text : XElem} (h : ExpOk text) {r : XRow} (hr : r ∈ text.descs []) : AncIds r.1 := by
  intro a ha ht
  rcases (descs_anc text hr).2 a ha with rfl | h' | ⟨rest, h'⟩
  · exact h.id.1
  · simp at h'
  · rcases (h.rows _ h').tag with ⟨_, h1⟩ | ⟨h1, _⟩
    · exact h1
    · simp only [List.mem_cons, List.not_mem_nil, or_false] at ht
      rcases ht with ht | ht <;> (rw [show ((rest, a) : XRow).2.tag = a.tag from rfl, ht] at h1; simp [expNotes] at h1)

/-! ### parents are read before their children -/

/-- what an element annotates exists when it is read; elements with an ID exist after they have been read -/
def Ordered (has : NodeId → Prop) : List XRow → Prop
  | [] => True
  | r :: rs => (r.2.tag ∈ expNotes → has (.str (XRow.own r))) ∧ Ordered (fun m => has m ∨ (r.2.tag ∈ expOwners ∧ m = .str (XRow.own r))) rs

/-- the nodes that exist after the elements have been read -/
def AfterRows (has : NodeId → Prop) (rs : List XRow) (m : NodeId) : Prop := has m ∨ ∃ r ∈ rs, r.2.tag ∈ expOwners ∧ m = .str (XRow.own r)

theorem Ordered.mono {rs : List XRow} : ∀ {p q : NodeId → Prop}, (∀ m, p m → q m) → Ordered p rs → Ordered q rs := by
  induction rs with
  | nil => intro _ _ _ _; trivial
  | cons r rs ih => intro p q h ho; exact ⟨fun ht => h _ (ho.1 ht), ih (fun m hm => hm.imp (h m) id) ho.2⟩

theorem ordered_append {rs rs' : List XRow} : ∀ {has : NodeId → Prop}, Ordered has rs → Ordered (AfterRows has rs) rs' → Ordered has (rs ++ rs') := by
  induction rs with
  | nil =>
    intro has _ h
    exact h.mono (by rintro m (h | ⟨_, h, _⟩); exact h; simp at h)
  | cons r rs ih =>
    intro has h h'
    refine ⟨h.1, ih h.2 (h'.mono ?_)⟩
    rintro m (hm | ⟨x, hx, hm⟩)
    · exact .inl (.inl hm)
    · rcases List.mem_cons.1 hx with rfl | hx
      · exact .inl (.inr hm)
      · exact .inr ⟨x, hx, hm⟩

theorem ordered_flatMap {α : Type} {f : α → List XRow} {xs : List α} : ∀ {has : NodeId → Prop}, (∀ x ∈ xs, Ordered has (f x)) → Ordered has (xs.flatMap f) := by
  induction xs with
  | nil => intro _ _; trivial
  | cons x xs ih =>
    intro has h
    rw [List.flatMap_cons]
    exact ordered_append (h x (by simp)) (ih fun y hy => (h y (List.mem_cons_of_mem _ hy)).mono fun m hm => .inl hm)

/-- the IDs of the ancestors -/
def AncHas (has : NodeId → Prop) (anc : List XElem) : Prop := ∀ a ∈ anc, ∀ i, a.id = some i → has (.str i)

theorem own_note {r : XRow} (ho : XRow.Ok r) (ht : r.2.tag ∈ expNotes) : ∃ p rest, r.1 = p :: rest ∧ p.id = some (XRow.own r) := by
  rcases ho.tag with ⟨h1, _⟩ | ⟨_, h1, p, rest, i, h2, h3⟩
  · exfalso
    simp only [expNotes, List.mem_cons, List.not_mem_nil, or_false] at ht
    rcases ht with h | h | h | h | h <;> (rw [h] at h1; simp [expOwners] at h1)
  · refine ⟨p, rest, h2, ?_⟩
    unfold XRow.own
    rw [h1, h2]
    simp [h3]

theorem has_row {has : NodeId → Prop} {r : XRow} (ho : XRow.Ok r) (ha : AncHas has r.1) (ht : r.2.tag ∈ expNotes) : has (.str (XRow.own r)) := by
  obtain ⟨p, rest, h1, h2⟩ := own_note ho ht
  exact ha p (by rw [h1]; simp) _ h2

theorem owner_id {r : XRow} (ho : XRow.Ok r) {i : String} (h : r.2.id = some i) : r.2.tag ∈ expOwners ∧ XRow.own r = i := by
  refine ⟨?_, own_of_id h⟩
  rcases ho.tag with ⟨h1, _⟩ | ⟨_, h1, _⟩
  · exact h1
  · rw [h] at h1; exact absurd h1 (by simp)

theorem reads_ordered (e : XElem) : ∀ {anc : List XElem} {has : NodeId → Prop}, AncHas has anc → XRow.Ok (anc, e) → (∀ x ∈ e.descs anc, XRow.Ok x) → Ordered has (e.reads anc) := by
  induction e using XElem.ind with
  | h t i a cs ih =>
    intro anc has ha ho hd
    rw [reads_mk]
    refine ⟨fun ht => has_row ho ha ht, ?_⟩
    split
    · refine ordered_flatMap ?_
      intro c hc
      have hmem : ∀ x, (x = (XElem.mk t i a cs :: anc, c) ∨ x ∈ c.descs (XElem.mk t i a cs :: anc)) → x ∈ (XElem.mk t i a cs).descs anc := by
        intro x hx
        rw [descs_mk, List.mem_flatMap]
        exact ⟨c, hc, List.mem_cons.2 hx⟩
      refine ih c hc ?_ (hd _ (hmem _ (.inl rfl))) (fun x hx => hd x (hmem x (.inr hx)))
      intro b hb j hj
      rcases List.mem_cons.1 hb with rfl | hb
      · obtain ⟨h1, h2⟩ := owner_id ho hj
        exact .inr ⟨h1, by rw [h2]⟩
      · exact .inl (ha b hb j hj)
    · trivial

theorem descs_ordered (e : XElem) : ∀ {anc : List XElem} {has : NodeId → Prop}, AncHas has anc → (∀ i, e.id = some i → has (.str i)) → (∀ x ∈ e.descs anc, XRow.Ok x) → Ordered has ((e.descs anc).flatMap (fun r => r.2.reads r.1)) := by
  induction e using XElem.ind with
  | h t i a cs ih =>
    intro anc has ha he hd
    rw [descs_mk, List.flatMap_assoc]
    refine ordered_flatMap ?_
    intro c hc
    have hmem : ∀ x, (x = (XElem.mk t i a cs :: anc, c) ∨ x ∈ c.descs (XElem.mk t i a cs :: anc)) → x ∈ (XElem.mk t i a cs).descs anc := by
      intro x hx
      rw [descs_mk, List.mem_flatMap]
      exact ⟨c, hc, List.mem_cons.2 hx⟩
    have hanc : AncHas has (XElem.mk t i a cs :: anc) := by
      intro b hb j hj
      rcases List.mem_cons.1 hb with rfl | hb
      · exact he j hj
      · exact ha b hb j hj
    have hoc := hd _ (hmem _ (.inl rfl))
    rw [List.flatMap_cons]
    refine ordered_append (reads_ordered c hanc hoc (fun x hx => hd x (hmem x (.inr hx)))) ?_
    refine ih c hc (fun b hb j hj => .inl (hanc b hb j hj)) ?_ (fun x hx => hd x (hmem x (.inr hx)))
    intro j hj
    obtain ⟨h1, h2⟩ := owner_id hoc hj
    exact .inr ⟨_, self_reads _ _, h1, by rw [h2]⟩

end Dg
