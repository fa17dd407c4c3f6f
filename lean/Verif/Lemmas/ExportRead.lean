import Verif.Lemmas.ExportRows
import Verif.Props.C59

/-! Reading an ExportXML document is a sequence of calls; what the calls add. -/

namespace Dg
open Dict
namespace DG

variable {ns : String} {root : NodeId} {has : NodeId → Prop} {g : DG} {r : XRow} {o : ExpOpts}

theorem expStep_eq (ho : XRow.Ok r) (hi : InsideOk r) (ha : AncIds r.1) (hne : r.1 ≠ []) (hn : r.2.tag ∈ expNotes → has (.str (XRow.own r))) (st : ExpState ns root has g) : expStep o g r = execs g (expCalls o ns root r) := by
  rcases row_tags ho with h | h | h | h | h | h | h | h | h | h | h | h
  · exact elem_edu ho hi st h
  · exact elem_eduRange ho hi st h
  · exact elem_ne ho hi st h
  · exact elem_node ho ha st h
  · exact elem_sentence ho hi st h
  · exact elem_topic ho hi st h
  · exact elem_word ho ha hne st h
  · exact elem_connective ho st (hn (by rw [h]; decide)) h
  · exact elem_discRel ho st (hn (by rw [h]; decide)) h
  · exact elem_relation ho st (hn (by rw [h]; decide)) h
  · exact elem_secEdge ho st h
  · exact elem_split ho st h

/-- the nodes that are given layers exist or get the namespace as layer -/
def NsFirst (ns : String) (has : NodeId → Prop) : List Instr → Prop
  | [] => True
  | i :: s => (match i with
    | .node n ls _ => has n ∨ ns ∈ ls
    | _ => True) ∧ NsFirst ns (fun m => has m ∨ i.Mentions m) s

theorem nsFirst_mono {s : List Instr} : ∀ {p q : NodeId → Prop}, (∀ m, p m → q m) → NsFirst ns p s → NsFirst ns q s := by
  induction s with
  | nil => intro _ _ _ _; trivial
  | cons i s ih =>
    intro p q h hs
    refine ⟨?_, ih (fun m hm => hm.imp (h m) id) hs.2⟩
    have := hs.1
    cases i with
    | node n ls _ => exact this.imp (h n) id
    | _ => trivial

theorem nsFirst_append {s s' : List Instr} : ∀ {has : NodeId → Prop}, NsFirst ns has (s ++ s') ↔ NsFirst ns has s ∧ NsFirst ns (fun m => has m ∨ ∃ i ∈ s, i.Mentions m) s' := by
  induction s with
  | nil => intro has; simp [NsFirst]
  | cons i s ih =>
    intro has
    rw [List.cons_append]
    show _ ∧ NsFirst ns _ (s ++ s') ↔ (_ ∧ _) ∧ _
    rw [ih, and_assoc]
    refine and_congr_right fun _ => and_congr_right fun _ => ?_
    constructor <;> refine nsFirst_mono ?_ <;> intro m hm
    · rcases hm with (hm | hm) | ⟨j, hj, hm⟩
      · exact .inl hm
      · exact .inr ⟨i, by simp, hm⟩
      · exact .inr ⟨j, List.mem_cons_of_mem _ hj, hm⟩
    · rcases hm with hm | ⟨j, hj, hm⟩
      · exact .inl (.inl hm)
      · rcases List.mem_cons.1 hj with rfl | hj
        · exact .inl (.inr hm)
        · exact .inr ⟨j, hj, hm⟩

/-- every new node gets the namespace as layer -/
theorem nsFirst_layer {s : List Instr} {m : NodeId} : ∀ {has : NodeId → Prop}, NsFirst ns has s → ¬ has m → (∃ i ∈ s, i.Mentions m) → (∃ i ∈ s, i.GivesLayer m (.str ns)) ∨ Implicit m s := by
  induction s with
  | nil => intro _ _ _ h; simp at h
  | cons i s ih =>
    intro has h hm he
    by_cases hi : i.Mentions m
    · cases i with
      | node n ls at' =>
        obtain rfl : m = n := hi
        rcases h.1 with h1 | h1
        · exact absurd h1 hm
        · exact .inl ⟨_, List.mem_cons_self .., rfl, List.mem_map.2 ⟨ns, h1, rfl⟩⟩
      | edge u v ls at' => exact .inr (.inl ⟨hi, trivial⟩)
      | attr => exact absurd hi (by simp [Instr.Mentions])
      | token => exact absurd hi (by simp [Instr.Mentions])
      | sentence => exact absurd hi (by simp [Instr.Mentions])
    · have he' : ∃ j ∈ s, j.Mentions m := by
        obtain ⟨j, hj, hjm⟩ := he
        rcases List.mem_cons.1 hj with rfl | hj
        · exact absurd hjm hi
        · exact ⟨j, hj, hjm⟩
      rcases ih h.2 (by rintro (h' | h'); exact hm h'; exact hi h') he' with ⟨j, hj, h1⟩ | h1
      · exact .inl ⟨j, List.mem_cons_of_mem _ hj, h1⟩
      · exact .inr (.inr ⟨hi, h1⟩)

theorem nsFirst_edges (es : List EdgeSpec) : NsFirst ns has (edgeCalls es) := by
  unfold edgeCalls
  induction es generalizing has with
  | nil => trivial
  | cons e es ih => exact ⟨trivial, ih⟩

theorem nsFirst_attrs (d : Attrs) (n : NodeId) : NsFirst ns has (d.map (fun kv => Instr.attr n kv.1 kv.2)) := by
  induction d generalizing has with
  | nil => trivial
  | cons e es ih => exact ⟨trivial, ih⟩

theorem calls_ok (ho : XRow.Ok r) (hn : r.2.tag ∈ expNotes → has (.str (XRow.own r))) : ScriptOk has (expCalls o ns root r) ∧ NsFirst ns has (expCalls o ns root r) := by
  have he : ∀ {p : NodeId → Prop}, ScriptOk p (edgePart o ns root r) := edgePart_ok ho
  have hf : ∀ {p : NodeId → Prop}, NsFirst ns p (edgePart o ns root r) := nsFirst_edges _
  have hq : ∀ x, qual ns x ≠ "layers" := fun x => qual_layers ns x
  have hk := (feats_ok (ns := ns) ho).1
  rcases row_tags ho with h | h | h | h | h | h | h | h | h | h | h | h
  · simp only [expCalls, h, String.reduceEq, if_false, if_true]
    exact ⟨⟨⟨by simp, hk⟩, scriptOk_append.2 ⟨he, ⟨.inl (.inr rfl), by decide⟩, trivial⟩⟩, ⟨.inr (by simp), nsFirst_append.2 ⟨hf, trivial, trivial⟩⟩⟩
  · simp only [expCalls, h, String.reduceEq, if_false, if_true]
    exact ⟨⟨⟨by simp, hk⟩, he⟩, ⟨.inr (by simp), hf⟩⟩
  · simp only [expCalls, h, String.reduceEq, if_false, if_true]
    exact ⟨⟨label_ok ho _ (by simp) _, he⟩, ⟨.inr (by simp), hf⟩⟩
  · simp only [expCalls, h, String.reduceEq, if_false, if_true]
    exact ⟨⟨label_ok ho _ (by simp) _, he⟩, ⟨.inr (by simp), hf⟩⟩
  · have e : XRow.edges o ns root r = [⟨root, .str (XRow.own r), [ns], [("edge_type", strV "dominates")]⟩] := by row_simp h h
    simp only [expCalls, h, String.reduceEq, if_false, if_true]
    refine ⟨scriptOk_append.2 ⟨he, trivial, ⟨.inl (.inr ⟨.edge root (.str (XRow.own r)) [ns] [("edge_type", strV "dominates")], ?_, .inr rfl⟩), by decide⟩, trivial⟩, nsFirst_append.2 ⟨hf, trivial, trivial, trivial⟩⟩
    rw [mem_edgeCalls, e]; simp
  · simp only [expCalls, h, String.reduceEq, if_false, if_true]
    exact ⟨⟨⟨by simp, by simp [keys]⟩, scriptOk_append.2 ⟨he, ⟨.inl (.inr rfl), by decide⟩, trivial⟩⟩, ⟨.inr (by simp), nsFirst_append.2 ⟨hf, trivial, trivial⟩⟩⟩
  · simp only [expCalls, h, String.reduceEq, if_false, if_true]
    exact ⟨⟨trivial, ⟨by simp, nodup_upd hk _⟩, he⟩, ⟨trivial, .inr (by simp), hf⟩⟩
  · have hh := hn (by rw [h]; decide)
    simp only [expCalls, h, String.reduceEq, if_false, if_true]
    exact ⟨⟨⟨by simp, by simp [keys]⟩, ⟨.inl hh, by decide⟩, trivial⟩, ⟨.inl hh, trivial, trivial⟩⟩
  · have hh := hn (by rw [h]; decide)
    simp only [expCalls, h, String.reduceEq, if_false, if_true]
    split
    · exact ⟨trivial, trivial⟩
    · refine ⟨scriptOk_append.2 ⟨scriptOk_free' ?_, ⟨by simp, by simp [keys]⟩, ⟨by simp, by simp [keys]⟩, he⟩, nsFirst_append.2 ⟨nsFirst_attrs _ _, .inl (.inl hh), .inl (.inl (.inl hh)), hf⟩⟩
      intro i hi
      obtain ⟨kv, hkv, rfl⟩ := List.mem_map.1 hi
      refine ⟨hh, ?_⟩
      intro e
      exact (feats_ok (ns := ns) ho).2.1 (by rw [← e]; exact List.mem_map.2 ⟨kv, hkv, rfl⟩)
  · have hh := hn (by rw [h]; decide)
    simp only [expCalls, h, String.reduceEq, if_false, if_true]
    split
    · exact ⟨trivial, trivial⟩
    · rename_i hr
      have hr' : o.relations = false := by simpa using hr
      cases ht : find r.2.attrs "target" with
      | none => exact ⟨⟨⟨hh, by decide⟩, ⟨by simp, by simp [keys]⟩, trivial⟩, ⟨trivial, .inl (.inl hh), trivial⟩⟩
      | some t =>
        have e : XRow.edges o ns root r = [⟨.str (XRow.own r), .str t, [ns, qual ns (XRow.at' r "type"), qual ns "coreference"], [("label", strV (XRow.at' r "type")), ("edge_type", strV "points_to")]⟩] := by
          row_simp h hr'
          rw [ht]
        refine ⟨⟨⟨hh, by decide⟩, ⟨by simp, by simp [keys]⟩, ⟨by simp, by simp [keys]⟩, scriptOk_append.2 ⟨he, ⟨by simp, by simp [keys]⟩, trivial⟩⟩, ⟨trivial, .inl (.inl hh), .inl (.inl (.inl hh)), nsFirst_append.2 ⟨hf, .inl (.inr ?_), trivial⟩⟩⟩
        exact ⟨.edge (.str (XRow.own r)) (.str t) [ns, qual ns (XRow.at' r "type"), qual ns "coreference"] [("label", strV (XRow.at' r "type")), ("edge_type", strV "points_to")], by rw [mem_edgeCalls, e]; simp, .inr rfl⟩
  · simp only [expCalls, h, String.reduceEq, if_false, if_true]
    exact ⟨he, hf⟩
  · simp only [expCalls, h, String.reduceEq, if_false, if_true]
    split
    · exact ⟨trivial, trivial⟩
    · exact ⟨⟨⟨by simp, by simp [keys]⟩, ⟨by simp, by simp [keys]⟩, he⟩, ⟨.inr (by simp), .inr (by simp), hf⟩⟩

theorem calls_own (ho : XRow.Ok r) (ht : r.2.tag ∈ expOwners) : ∃ i ∈ expCalls o ns root r, i.Mentions (.str (XRow.own r)) := by
  simp only [expOwners, List.mem_cons, List.not_mem_nil, or_false] at ht
  rcases ht with h | h | h | h | h | h | h
  · simp only [expCalls, h, String.reduceEq, if_false, if_true]
    exact ⟨_, List.mem_cons_self .., rfl⟩
  · simp only [expCalls, h, String.reduceEq, if_false, if_true]
    exact ⟨_, List.mem_cons_self .., rfl⟩
  · simp only [expCalls, h, String.reduceEq, if_false, if_true]
    exact ⟨_, List.mem_cons_self .., rfl⟩
  · simp only [expCalls, h, String.reduceEq, if_false, if_true]
    exact ⟨_, List.mem_cons_self .., rfl⟩
  · have e : XRow.edges o ns root r = [⟨root, .str (XRow.own r), [ns], [("edge_type", strV "dominates")]⟩] := by row_simp h h
    simp only [expCalls, h, String.reduceEq, if_false, if_true]
    exact ⟨.edge root (.str (XRow.own r)) [ns] [("edge_type", strV "dominates")], List.mem_append_left _ (by rw [mem_edgeCalls, e]; simp), .inr rfl⟩
  · simp only [expCalls, h, String.reduceEq, if_false, if_true]
    exact ⟨_, List.mem_cons_self .., rfl⟩
  · simp only [expCalls, h, String.reduceEq, if_false, if_true]
    exact ⟨_, List.mem_cons_of_mem _ (List.mem_cons_self ..), rfl⟩

/-- reading elements in a good order -/
theorem rows_eq {L : List XRow} (hL : ∀ r ∈ L, XRow.Ok r ∧ InsideOk r ∧ AncIds r.1 ∧ r.1 ≠ []) : ∀ {has : NodeId → Prop} {g : DG}, Ordered has L → ExpState ns root has g →
    L.foldlM (expStep o) g = execs g (L.flatMap (expCalls o ns root)) ∧ ScriptOk has (L.flatMap (expCalls o ns root)) ∧ NsFirst ns has (L.flatMap (expCalls o ns root)) := by
  induction L with
  | nil => intro _ _ _ _; exact ⟨rfl, trivial, trivial⟩
  | cons r L ih =>
    intro has g hord st
    obtain ⟨ho, hi, ha, hne⟩ := hL r (by simp)
    have e := expStep_eq (o := o) ho hi ha hne hord.1 st
    obtain ⟨k1, k2⟩ := calls_ok (o := o) (ns := ns) (root := root) ho hord.1
    obtain ⟨g', e', st', _⟩ := st.after k1
    have hord' : Ordered (fun m => has m ∨ ∃ i ∈ expCalls o ns root r, i.Mentions m) L := by
      refine hord.2.mono ?_
      rintro m (hm | ⟨hm, rfl⟩)
      · exact .inl hm
      · exact .inr (calls_own ho hm)
    obtain ⟨h1, h2, h3⟩ := ih (fun x hx => hL x (List.mem_cons_of_mem _ hx)) hord' st'
    rw [List.flatMap_cons]
    refine ⟨?_, scriptOk_append.2 ⟨k1, h2⟩, nsFirst_append.2 ⟨k2, h3⟩⟩
    rw [List.foldlM_cons, e, execs_append, e']
    exact h1

mutual
theorem expElem_eq (o : ExpOpts) (anc : List XElem) (g : DG) : ∀ e : XElem, expElem o anc g e = (e.reads anc).foldlM (expStep o) g
  | .mk t i a cs => by
    rw [expElem, XElem.reads, List.foldlM_cons]
    cases expStep o g (anc, .mk t i a cs) with
    | error e => rfl
    | ok g1 =>
      show (if t = "word" then expChildren o _ g1 cs else .ok g1) = List.foldlM _ _ _
      split
      · exact expChildren_eq o _ g1 cs
      · rfl
theorem expChildren_eq (o : ExpOpts) (anc : List XElem) (g : DG) : ∀ cs : List XElem, expChildren o anc g cs = (XElem.readsL anc cs).foldlM (expStep o) g
  | [] => rfl
  | c :: cs => by
    rw [expChildren, XElem.readsL, List.foldlM_append, expElem_eq o anc g c]
    cases (XElem.reads anc c).foldlM (expStep o) g with
    | error e => rfl
    | ok g1 => exact expChildren_eq o anc g1 cs
end

theorem foldlM_flatMap {α β : Type} (f : DG → β → Except PyErr DG) (k : α → List β) : ∀ (xs : List α) (g : DG), xs.foldlM (fun g x => (k x).foldlM f g) g = (xs.flatMap k).foldlM f g
  | [], _ => rfl
  | x :: xs, g => by
    rw [List.foldlM_cons, List.flatMap_cons, List.foldlM_append]
    cases (k x).foldlM f g with
    | error e => rfl
    | ok g' => exact foldlM_flatMap f k xs g'

end DG
end Dg
