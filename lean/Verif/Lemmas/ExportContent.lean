import Verif.Lemmas.ExportRead
import Verif.Lemmas.DisRead
import Mathlib.Data.List.Perm.Basic

/-! What the calls of the ExportXML reader add to the graph. -/

namespace Dg
open Dict
namespace DG

variable {ns : String} {root : NodeId} {has : NodeId → Prop} {g : DG} {r : XRow} {o : ExpOpts}

theorem edgeCalls_sentences (es : List EdgeSpec) : (edgeCalls es).flatMap Instr.newSentences = [] := by
  rw [List.flatMap_eq_nil_iff]
  intro i hi
  obtain ⟨e, _, rfl⟩ := List.mem_map.1 hi
  rfl

theorem attrCalls_spec (d : Attrs) (n : NodeId) : (d.map (fun kv => Instr.attr n kv.1 kv.2)).filterMap Instr.spec = [] := by
  rw [List.filterMap_eq_nil_iff]
  intro i hi
  obtain ⟨e, _, rfl⟩ := List.mem_map.1 hi
  rfl

theorem attrCalls_tokens (d : Attrs) (n : NodeId) : (d.map (fun kv => Instr.attr n kv.1 kv.2)).flatMap Instr.newTokens = [] := by
  rw [List.flatMap_eq_nil_iff]
  intro i hi
  obtain ⟨e, _, rfl⟩ := List.mem_map.1 hi
  rfl

theorem attrCalls_sentences (d : Attrs) (n : NodeId) : (d.map (fun kv => Instr.attr n kv.1 kv.2)).flatMap Instr.newSentences = [] := by
  rw [List.flatMap_eq_nil_iff]
  intro i hi
  obtain ⟨e, _, rfl⟩ := List.mem_map.1 hi
  rfl

/-- the options are off -/
theorem edges_off (h : (r.2.tag = "discRel" ∨ r.2.tag = "relation" ∨ r.2.tag = "splitRelation") ∧ o.relations = true ∨ r.2.tag = "splitRelation" ∧ o.splitrelations = true) : XRow.edges o ns root r = [] ∧ XRow.layers o ns r = [] ∧ XRow.writes o ns r = [] ∧ expCalls o ns root r = [] := by
  rcases h with ⟨h | h | h, hr⟩ | ⟨h, hr⟩
  · row_simp h hr
  · row_simp h hr
  · row_simp h hr
  · row_simp h hr

theorem edges_target_none (h : r.2.tag = "relation") (ht : find r.2.attrs "target" = none) : XRow.edges o ns root r = [] := by
  cases hr : o.relations with
  | true => exact (edges_off (.inl ⟨.inr (.inl h), hr⟩)).1
  | false => row_simp h hr; rw [ht]

theorem exp_spec (ho : XRow.Ok r) : (expCalls o ns root r).filterMap Instr.spec = XRow.edges o ns root r := by
  have he := edgeCalls_spec (XRow.edges o ns root r)
  have ha : ∀ (i : Instr) (s : List Instr), i.spec = none → (i :: s).filterMap Instr.spec = s.filterMap Instr.spec := fun i s hi => List.filterMap_cons_none hi
  rcases row_tags ho with h | h | h | h | h | h | h | h | h | h | h | h
  · simp only [expCalls, h, String.reduceEq, if_false, if_true]
    rw [ha _ _ rfl, List.filterMap_append, he]
    exact List.append_nil _
  · simp only [expCalls, h, String.reduceEq, if_false, if_true]
    rw [ha _ _ rfl, he]
  · simp only [expCalls, h, String.reduceEq, if_false, if_true]
    rw [ha _ _ rfl, he]
  · simp only [expCalls, h, String.reduceEq, if_false, if_true]
    rw [ha _ _ rfl, he]
  · simp only [expCalls, h, String.reduceEq, if_false, if_true]
    rw [List.filterMap_append, he]
    exact List.append_nil _
  · simp only [expCalls, h, String.reduceEq, if_false, if_true]
    rw [ha _ _ rfl, List.filterMap_append, he]
    exact List.append_nil _
  · simp only [expCalls, h, String.reduceEq, if_false, if_true]
    rw [ha _ _ rfl, ha _ _ rfl, he]
  · row_simp h h
    rfl
  · cases hr : o.relations with
    | true =>
      obtain ⟨e1, _, _, e4⟩ := edges_off (o := o) (ns := ns) (root := root) (r := r) (.inl ⟨.inl h, hr⟩)
      rw [e1, e4]; rfl
    | false =>
      simp only [expCalls, h, hr, String.reduceEq, if_false, if_true, Bool.false_eq_true]
      rw [List.filterMap_append, attrCalls_spec, ha _ _ rfl, ha _ _ rfl, he]
      rfl
  · cases hr : o.relations with
    | true =>
      obtain ⟨e1, _, _, e4⟩ := edges_off (o := o) (ns := ns) (root := root) (r := r) (.inl ⟨.inr (.inl h), hr⟩)
      rw [e1, e4]; rfl
    | false =>
      simp only [expCalls, h, hr, String.reduceEq, if_false, if_true, Bool.false_eq_true]
      rw [ha _ _ rfl, ha _ _ rfl]
      cases ht : find r.2.attrs "target" with
      | none => rw [edges_target_none h ht]; rfl
      | some t =>
        dsimp only
        rw [ha _ _ rfl, List.filterMap_append, he]
        exact List.append_nil _
  · simp only [expCalls, h, String.reduceEq, if_false, if_true]
    exact he
  · simp only [expCalls, h, String.reduceEq, if_false, if_true]
    split
    · rename_i hr
      have : XRow.edges o ns root r = [] := by
        cases h1 : o.relations with
        | true => exact (edges_off (.inl ⟨.inr (.inr h), h1⟩)).1
        | false => rw [h1] at hr; exact (edges_off (.inr ⟨h, by simpa using hr⟩)).1
      rw [this]; rfl
    · rw [ha _ _ rfl, ha _ _ rfl, he]

theorem exp_tokens (ho : XRow.Ok r) : (expCalls o ns root r).flatMap Instr.newTokens = (if r.2.tag = "word" then [NodeId.str (XRow.own r)] else []) ∧
    (expCalls o ns root r).flatMap Instr.newSentences = (if r.2.tag = "sentence" then [NodeId.str (XRow.own r)] else []) := by
  have e1 := edgeCalls_tokens (XRow.edges o ns root r)
  have e2 := edgeCalls_sentences (XRow.edges o ns root r)
  rcases row_tags ho with h | h | h | h | h | h | h | h | h | h | h | h
  all_goals simp only [expCalls, h, String.reduceEq, if_false, if_true]
  all_goals try split
  all_goals try cases find r.2.attrs "target"
  all_goals simp only [List.flatMap_cons, List.flatMap_append, e1, e2, attrCalls_tokens, attrCalls_sentences, List.flatMap_nil, Instr.newTokens, Instr.newSentences, List.nil_append, List.append_nil, and_self]


/-! ### layers -/

/-- the layers given by a call -/
def Instr.gives : Instr → List (NodeId × Atom)
  | .node n ls _ => ls.map (fun l => (n, Atom.str l))
  | _ => []

theorem gives_iff {m : NodeId} {l : Atom} {s : List Instr} : (∃ i ∈ s, i.GivesLayer m l) ↔ (m, l) ∈ s.flatMap Instr.gives := by
  rw [List.mem_flatMap]
  refine exists_congr fun i => and_congr_right fun _ => ?_
  cases i with
  | node n ls d =>
    simp only [Instr.GivesLayer, Instr.gives, List.mem_map, Prod.mk.injEq]
    constructor
    · rintro ⟨rfl, x, hx, rfl⟩; exact ⟨x, hx, rfl, rfl⟩
    · rintro ⟨x, hx, rfl, rfl⟩; exact ⟨rfl, x, hx, rfl⟩
  | _ => simp [Instr.GivesLayer, Instr.gives]

theorem edgeCalls_gives (es : List EdgeSpec) : (edgeCalls es).flatMap Instr.gives = [] := by
  rw [List.flatMap_eq_nil_iff]
  intro i hi
  obtain ⟨e, _, rfl⟩ := List.mem_map.1 hi
  rfl

theorem attrCalls_gives (d : Attrs) (n : NodeId) : (d.map (fun kv => Instr.attr n kv.1 kv.2)).flatMap Instr.gives = [] := by
  rw [List.flatMap_eq_nil_iff]
  intro i hi
  obtain ⟨e, _, rfl⟩ := List.mem_map.1 hi
  rfl

/-- the layers given by the calls for an element -/
theorem exp_layers (ho : XRow.Ok r) : (∀ p ∈ XRow.layers o ns r, (NodeId.str p.1, Atom.str p.2) ∈ (expCalls o ns root r).flatMap Instr.gives) ∧
    ∀ q ∈ (expCalls o ns root r).flatMap Instr.gives, (q.2 = .str ns ∨ ∃ p ∈ XRow.layers o ns r, q.1 = .str p.1 ∧ q.2 = .str p.2) ∧ ∃ p ∈ XRow.layers o ns r, q.1 = .str p.1 := by
  have e1 := edgeCalls_gives (XRow.edges o ns root r)
  have off : ∀ (hr : (r.2.tag = "discRel" ∨ r.2.tag = "relation" ∨ r.2.tag = "splitRelation") ∧ o.relations = true ∨ r.2.tag = "splitRelation" ∧ o.splitrelations = true), (∀ p ∈ XRow.layers o ns r, (NodeId.str p.1, Atom.str p.2) ∈ (expCalls o ns root r).flatMap Instr.gives) ∧
      ∀ q ∈ (expCalls o ns root r).flatMap Instr.gives, (q.2 = .str ns ∨ ∃ p ∈ XRow.layers o ns r, q.1 = .str p.1 ∧ q.2 = .str p.2) ∧ ∃ p ∈ XRow.layers o ns r, q.1 = .str p.1 := by
    intro hr
    obtain ⟨_, e2, _, e4⟩ := edges_off (o := o) (ns := ns) (root := root) (r := r) hr
    rw [e2, e4]
    simp
  rcases row_tags ho with h | h | h | h | h | h | h | h | h | h | h | h
  · simp [expCalls, XRow.layers, h, e1, Instr.gives]
  · simp [expCalls, XRow.layers, h, e1, Instr.gives]
  · simp [expCalls, XRow.layers, h, e1, Instr.gives]
  · simp [expCalls, XRow.layers, h, e1, Instr.gives]
  · simp [expCalls, XRow.layers, h, e1, Instr.gives]
  · simp [expCalls, XRow.layers, h, e1, Instr.gives]
  · simp [expCalls, XRow.layers, h, e1, Instr.gives]
  · simp [expCalls, XRow.layers, h, Instr.gives]
  · cases hr : o.relations with
    | true => exact off (.inl ⟨.inl h, hr⟩)
    | false =>
      simp only [expCalls, XRow.layers, h, hr, String.reduceEq, if_false, if_true, Bool.false_eq_true, List.flatMap_append, List.flatMap_cons, attrCalls_gives, e1, Instr.gives, and_self, false_and, true_and]
      simp
  · cases hr : o.relations with
    | true => exact off (.inl ⟨.inr (.inl h), hr⟩)
    | false =>
      cases ht : find r.2.attrs "target" <;> simp [expCalls, XRow.layers, h, hr, ht, e1, Instr.gives]
  · simp [expCalls, XRow.layers, h, e1]
  · cases h1 : o.relations with
    | true => exact off (.inl ⟨.inr (.inr h), h1⟩)
    | false =>
      cases h2 : o.splitrelations with
      | true => exact off (.inr ⟨h, h2⟩)
      | false => simp [expCalls, XRow.layers, h, h1, h2, e1, Instr.gives]

/-! ### nodes -/

theorem exp_mentions (ho : XRow.Ok r) {m : NodeId} : (∃ i ∈ expCalls o ns root r, i.Mentions m) ↔ XRow.Involves o ns root r m := by
  have h1 : (∃ i ∈ expCalls o ns root r, i.Mentions m) ↔ (∃ e ∈ XRow.edges o ns root r, e.source = m ∨ e.target = m) ∨ ∃ n ls d, .node n ls d ∈ expCalls o ns root r ∧ m = n := by
    constructor
    · rintro ⟨i, hi, hm⟩
      cases i with
      | node n ls d => exact .inr ⟨n, ls, d, hi, hm⟩
      | edge u v ls d =>
        rw [mem_spec, exp_spec ho] at hi
        refine .inl ⟨_, hi, ?_⟩
        rcases hm with rfl | rfl
        · exact .inl rfl
        · exact .inr rfl
      | attr => exact absurd hm (by simp [Instr.Mentions])
      | token => exact absurd hm (by simp [Instr.Mentions])
      | sentence => exact absurd hm (by simp [Instr.Mentions])
    · rintro (⟨e, he, hm⟩ | ⟨n, ls, d, hi, rfl⟩)
      · have : Instr.edge e.source e.target e.layers e.attrs ∈ expCalls o ns root r := by
          rw [mem_spec, exp_spec ho]; exact he
        exact ⟨_, this, hm.imp Eq.symm Eq.symm⟩
      · exact ⟨_, hi, rfl⟩
  rw [h1]
  unfold XRow.Involves
  refine or_congr_right ?_
  obtain ⟨k1, k2⟩ := exp_layers (o := o) (ns := ns) (root := root) ho
  constructor
  · rintro ⟨n, ls, d, hi, rfl⟩
    obtain ⟨c1, _⟩ := calls_ok (has := fun _ => True) (o := o) (ns := ns) (root := root) ho (fun _ => trivial)
    have hne : ls ≠ [] := by
      have : ∀ (s : List Instr) (p : NodeId → Prop), ScriptOk p s → .node m ls d ∈ s → ls ≠ [] := by
        intro s
        induction s with
        | nil => intro _ _ h; simp at h
        | cons i s ih =>
          intro p hp h
          rcases List.mem_cons.1 h with rfl | h
          · exact hp.1.1
          · exact ih _ hp.2 h
      exact this _ _ c1 hi
    obtain ⟨l, hl⟩ := List.exists_mem_of_ne_nil _ hne
    exact (k2 (m, .str l) (List.mem_flatMap.2 ⟨_, hi, List.mem_map.2 ⟨l, hl, rfl⟩⟩)).2
  · rintro ⟨p, hp, rfl⟩
    obtain ⟨i, hi, hg⟩ := List.mem_flatMap.1 (k1 p hp)
    cases i with
    | node n ls d =>
      obtain ⟨l, _, e⟩ := List.mem_map.1 hg
      exact ⟨n, ls, d, hi, (congrArg Prod.fst e).symm⟩
    | _ => simp [Instr.gives] at hg

/-! ### attributes -/

theorem lastOf_append (m : NodeId) (k : String) (a b : List (String × String × Val)) : lastOf m k (a ++ b) = (lastOf m k b).or (lastOf m k a) := by
  unfold lastOf
  rw [List.reverse_append, List.find?_append]
  cases List.find? _ b.reverse <;> simp

theorem lastOf_nil (m : NodeId) (k : String) : lastOf m k [] = none := rfl

theorem lastOf_one (m : NodeId) (k : String) (n k' : String) (v : Val) : lastOf m k [(n, k', v)] = if m = .str n ∧ k = k' then some v else none := by
  unfold lastOf
  simp only [List.reverse_singleton, List.find?_cons, List.find?_nil]
  by_cases h : NodeId.str n = m ∧ k' = k
  · rw [if_pos ⟨h.1.symm, h.2.symm⟩]; simp [h]
  · rw [if_neg (fun e => h ⟨e.1.symm, e.2.symm⟩)]
    simp [h]

theorem lastOf_cons (m : NodeId) (k : String) (w : String × String × Val) (ws : List (String × String × Val)) : lastOf m k (w :: ws) = (lastOf m k ws).or (lastOf m k [w]) :=
  lastOf_append m k [w] ws

theorem lastOf_two (m : NodeId) (k : String) (w w' : String × String × Val) : lastOf m k [w, w'] = (lastOf m k [w']).or (lastOf m k [w]) := lastOf_cons m k w [w']

theorem lastOf_dict (m : NodeId) (k n : String) {d : Attrs} (nd : (keys d).Nodup) : lastOf m k (d.map (fun kv => (n, kv.1, kv.2))) = if m = .str n then find d k else none := by
  induction d with
  | nil => simp [lastOf_nil]
  | cons kv d ih =>
    obtain ⟨k0, v⟩ := kv
    simp only [keys, List.map_cons, List.nodup_cons] at nd
    rw [List.map_cons, lastOf_cons, ih nd.2, lastOf_one]
    by_cases hm : m = .str n
    · simp only [hm, true_and, if_true, find_cons]
      by_cases hk : k0 = k
      · subst hk
        rw [(find_eq_none_iff _ _).2 nd.1]; simp
      · rw [if_neg (Ne.symm hk), if_neg hk]; simp
    · simp [hm]

theorem lastWrite_edges (m : NodeId) (k : String) (es : List EdgeSpec) : lastWrite m k (edgeCalls es) = none := by
  refine lastWrite_none ?_
  intro i hi
  obtain ⟨e, _, rfl⟩ := List.mem_map.1 hi
  rfl

theorem xml_writes (ns n : String) (d : XAttrs) : d.map (fun kv => (n, qual ns kv.1, strV kv.2)) = (xmlAttrs ns d).map (fun kv => (n, kv.1, kv.2)) := by
  unfold xmlAttrs
  rw [List.map_map]; rfl

theorem exp_writes (ho : XRow.Ok r) (m : NodeId) (k : String) : lastWrite m k (expCalls o ns root r) = lastOf m k (XRow.writes o ns r) := by
  have e1 := lastWrite_edges m k (XRow.edges o ns root r)
  have hd := (feats_ok (ns := ns) ho).1
  have hx : lastOf m k (r.2.attrs.map (fun kv => (XRow.own r, qual ns kv.1, strV kv.2))) = if m = .str (XRow.own r) then find (xmlAttrs ns r.2.attrs) k else none := by
    rw [xml_writes, lastOf_dict _ _ _ hd]
  have off : ∀ (hr : (r.2.tag = "discRel" ∨ r.2.tag = "relation" ∨ r.2.tag = "splitRelation") ∧ o.relations = true ∨ r.2.tag = "splitRelation" ∧ o.splitrelations = true), lastWrite m k (expCalls o ns root r) = lastOf m k (XRow.writes o ns r) := by
    intro hr
    obtain ⟨_, _, e3, e4⟩ := edges_off (o := o) (ns := ns) (root := root) (r := r) hr
    rw [e3, e4]; rfl
  have lab : ∀ (v : Val), (if m = NodeId.str (XRow.own r) then find (xmlAttrs ns r.2.attrs ++ [("label", v)]) k else none) = ((if m = .str (XRow.own r) ∧ k = "label" then some v else none).or (if m = .str (XRow.own r) then find (xmlAttrs ns r.2.attrs) k else none)) := by
    intro v
    by_cases hm : m = .str (XRow.own r)
    · simp only [hm, if_true, true_and]
      rw [find_append]
      by_cases hk : k = "label"
      · subst hk
        rw [(find_eq_none_iff _ _).2 (feats_ok (ns := ns) ho).2.2]
        simp [find_cons]
      · rw [if_neg hk, find_cons, if_neg (Ne.symm hk)]
        simp
    · simp [hm]
  rcases row_tags ho with h | h | h | h | h | h | h | h | h | h | h | h
  · simp only [expCalls, XRow.writes, h, String.reduceEq, if_false, if_true, lastWrite, lastWrite_append, e1, lastOf_append, lastOf_one, Instr.write, hx, Option.none_or, Option.or_none]
    rfl
  · simp only [expCalls, XRow.writes, h, String.reduceEq, if_false, if_true, lastWrite, lastWrite_append, e1, lastOf_append, lastOf_one, Instr.write, hx, Option.none_or, Option.or_none]
  · simp only [expCalls, XRow.writes, h, String.reduceEq, if_false, if_true, lastWrite, lastWrite_append, e1, lastOf_append, lastOf_one, Instr.write, hx, Option.none_or, Option.or_none, lab]
  · simp only [expCalls, XRow.writes, h, String.reduceEq, if_false, if_true, lastWrite, lastWrite_append, e1, lastOf_append, lastOf_one, Instr.write, hx, Option.none_or, Option.or_none, lab]
  · simp only [expCalls, XRow.writes, h, String.reduceEq, if_false, if_true, lastWrite, lastWrite_append, e1, lastOf_append, lastOf_one, Instr.write, Option.none_or, Option.or_none]
    unfold sentIds
    cases find r.2.attrs "span" <;> rfl
  · simp only [expCalls, XRow.writes, h, String.reduceEq, if_false, if_true, lastWrite, lastWrite_append, e1, lastOf_two, lastOf_one, Instr.write, Option.none_or, Option.or_none]
    congr 1
    by_cases hm : m = .str (XRow.own r) <;> simp [hm, find_cons, eq_comm]
  · simp only [expCalls, XRow.writes, h, String.reduceEq, if_false, if_true, lastWrite, lastWrite_append, e1, lastOf_append, lastOf_two, lastOf_one, Instr.write, hx, Option.none_or, Option.or_none]
    by_cases hm : m = .str (XRow.own r)
    · simp only [hm, if_true, true_and]
      rw [find_upd _ (by
        have := qual_ne_plain (ns := ns) (b := "label") (by decide) (a := "token")
        simp [keys, this])]
      congr 1
      rw [find_cons, find_cons]
      by_cases h1 : qual ns "token" = k
      · have : k ≠ "label" := by rintro rfl; exact qual_ne_plain (by decide) h1
        simp [h1, this]
      · by_cases h2 : k = "label" <;> simp [h1, h2, Ne.symm h1, eq_comm]
    · simp [hm]
  · simp only [expCalls, XRow.writes, h, String.reduceEq, if_false, if_true, lastWrite, lastOf_one, Instr.write, Option.none_or, Option.or_none, find_nil, ite_self]
  · cases hr : o.relations with
    | true => exact off (.inl ⟨.inl h, hr⟩)
    | false =>
      simp only [expCalls, XRow.writes, h, hr, String.reduceEq, if_false, if_true, lastWrite, lastWrite_append, e1, Instr.write, hx, Option.none_or, Option.or_none, find_nil, ite_self, Bool.false_eq_true, false_and, and_self, lastWrite_attrs hd]
  · cases hr : o.relations with
    | true => exact off (.inl ⟨.inr (.inl h), hr⟩)
    | false =>
      cases ht : find r.2.attrs "target" <;>
      simp only [expCalls, XRow.writes, h, hr, ht, String.reduceEq, if_false, if_true, lastWrite, lastWrite_append, e1, Instr.write, lastOf_one, Option.none_or, Option.or_none, find_nil, ite_self, Bool.false_eq_true, false_and, and_self]
  · simp only [expCalls, XRow.writes, h, String.reduceEq, if_false, if_true, e1, lastOf_nil, false_and]
  · cases h1 : o.relations with
    | true => exact off (.inl ⟨.inr (.inr h), h1⟩)
    | false =>
      cases h2 : o.splitrelations with
      | true => exact off (.inr ⟨h, h2⟩)
      | false => simp only [expCalls, XRow.writes, h, h1, h2, String.reduceEq, if_false, if_true, lastWrite, e1, Instr.write, lastOf_nil, Option.or_none, find_nil, ite_self, Bool.false_eq_true, false_and, Bool.or_false]

end DG
end Dg
