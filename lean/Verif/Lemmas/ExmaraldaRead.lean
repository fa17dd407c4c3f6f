import Verif.Lemmas.Exmaralda

namespace Dg
open Dict
namespace DG

theorem mem_exbScript {ns : String} {tokenTier : List Char} {ids : List (List Char)} {ts : List XTier} {i : Instr} : i ∈ exbScript ns tokenTier ids ts ↔
    (∃ x ∈ ids, i = .node (.str (String.ofList x)) [ns] [] ∨ i = .token (.str (String.ofList x))) ∨
    (∃ t ∈ ts, ¬ SpanTier tokenTier t ∧ ∃ e ∈ t.events, i = .attr (tNode e.a) (annotation ns tokenTier t e).1 (annotation ns tokenTier t e).2) ∨
    (∃ t ∈ ts, SpanTier tokenTier t ∧ (i = .node t.node [ns, qual ns "tier"] (XTier.attrs ns t) ∨ i = .edge (.str (ns ++ ":root_node")) t.node [ns] (edgeType "dominates") ∨
      ∃ j e, t.events[j]? = some e ∧ (i = .node (t.spanNode j) [ns, qual ns "span"] (XEvent.attrs ns e) ∨ i = .edge t.node (t.spanNode j) [ns] (edgeType "dominates") ∨
        ∃ k, e.a ≤ k ∧ k < e.b ∧ i = .edge (t.spanNode j) (tNode k) [ns] (edgeType "spans")))) := by
  unfold exbScript
  rw [List.mem_append, List.mem_flatMap, List.mem_flatMap]
  apply or_congr
  · apply exists_congr
    intro x
    simp
  have hspan : ∀ t : XTier, (i ∈ t.events.zipIdx.flatMap (spanScript ns t) ↔ ∃ j e, t.events[j]? = some e ∧ (i = .node (t.spanNode j) [ns, qual ns "span"] (XEvent.attrs ns e) ∨ i = .edge t.node (t.spanNode j) [ns] (edgeType "dominates") ∨
        ∃ k, e.a ≤ k ∧ k < e.b ∧ i = .edge (t.spanNode j) (tNode k) [ns] (edgeType "spans"))) := by
    intro t
    rw [List.mem_flatMap]
    have hs : ∀ (e : XEvent) (j : Nat), i ∈ spanScript ns t (e, j) ↔ (i = .node (t.spanNode j) [ns, qual ns "span"] (XEvent.attrs ns e) ∨ i = .edge t.node (t.spanNode j) [ns] (edgeType "dominates") ∨
        ∃ k, e.a ≤ k ∧ k < e.b ∧ i = .edge (t.spanNode j) (tNode k) [ns] (edgeType "spans")) := by
      intro e j
      unfold spanScript
      rw [List.mem_append, List.mem_map]
      simp only [List.mem_cons, List.not_mem_nil, or_false, or_assoc, List.mem_range']
      refine or_congr .rfl (or_congr .rfl ?_)
      constructor
      · rintro ⟨k, ⟨d, hd, rfl⟩, rfl⟩
        exact ⟨_, by omega, by omega, rfl⟩
      · rintro ⟨k, h1, h2, rfl⟩
        exact ⟨k, ⟨k - e.a, by omega, by omega⟩, rfl⟩
    constructor
    · rintro ⟨⟨e, j⟩, hm, h⟩
      have := List.mem_zipIdx hm
      refine ⟨j, e, ?_, (hs e j).1 h⟩
      obtain ⟨_, h2, h3⟩ := this
      rw [List.getElem?_eq_some_iff]
      exact ⟨by omega, by simpa using h3.symm⟩
    · rintro ⟨j, e, he, h⟩
      exact ⟨(e, j), by rw [List.mem_zipIdx_iff_getElem?]; exact he, (hs e j).2 h⟩
  have htier : ∀ t : XTier, i ∈ tierScript ns tokenTier t ↔ (¬ SpanTier tokenTier t ∧ ∃ e ∈ t.events, i = .attr (tNode e.a) (annotation ns tokenTier t e).1 (annotation ns tokenTier t e).2) ∨
      (SpanTier tokenTier t ∧ (i = .node t.node [ns, qual ns "tier"] (XTier.attrs ns t) ∨ i = .edge (.str (ns ++ ":root_node")) t.node [ns] (edgeType "dominates") ∨
      ∃ j e, t.events[j]? = some e ∧ (i = .node (t.spanNode j) [ns, qual ns "span"] (XEvent.attrs ns e) ∨ i = .edge t.node (t.spanNode j) [ns] (edgeType "dominates") ∨
        ∃ k, e.a ≤ k ∧ k < e.b ∧ i = .edge (t.spanNode j) (tNode k) [ns] (edgeType "spans")))) := by
    intro t
    unfold tierScript
    by_cases hc : t.category = tokenTier
    · have hns : ¬ SpanTier tokenTier t := fun h => h.1 hc
      rw [if_pos hc, List.mem_map]
      simp only [hns, not_false_eq_true, true_and, false_and, or_false, annotation, if_pos hc]
      exact exists_congr fun e => and_congr .rfl ⟨fun h => h.symm, fun h => h.symm⟩
    · rw [if_neg hc]
      by_cases ho : t.OneToken
      · have hns : ¬ SpanTier tokenTier t := fun h => h.2 ho
        rw [if_pos ho, List.mem_map]
        simp only [hns, not_false_eq_true, true_and, false_and, or_false, annotation, if_neg hc]
        exact exists_congr fun e => and_congr .rfl ⟨fun h => h.symm, fun h => h.symm⟩
      · have hns : SpanTier tokenTier t := ⟨hc, ho⟩
        rw [if_neg ho, List.mem_append, hspan]
        simp only [hns, not_true_eq_false, false_and, false_or, true_and, List.mem_cons, List.not_mem_nil, or_false, or_assoc]
  constructor
  · rintro ⟨t, ht, h⟩
    rcases (htier t).1 h with h | h
    · exact .inl ⟨t, ht, h⟩
    · exact .inr ⟨t, ht, h⟩
  · rintro (⟨t, ht, h⟩ | ⟨t, ht, h⟩)
    · exact ⟨t, ht, (htier t).2 (.inl h)⟩
    · exact ⟨t, ht, (htier t).2 (.inr h)⟩

theorem edge_mem_exbScript {ns : String} {tokenTier : List Char} {ids : List (List Char)} {ts : List XTier} {u v : NodeId} {ls : List String} {at' : Attrs} :
    .edge u v ls at' ∈ exbScript ns tokenTier ids ts ↔ ls = [ns] ∧ ∃ ty, at' = edgeType ty ∧ XEdge ns tokenTier ts u v ty := by
  rw [mem_exbScript]
  constructor
  · rintro (⟨x, _, h | h⟩ | ⟨t, _, _, e, _, h⟩ | ⟨t, ht, hs, h | h | ⟨j, e, he, h | h | ⟨k, h1, h2, h⟩⟩⟩) <;> injection h
    · rename_i e1 e2 e3 e4; subst e1 e2 e3 e4; exact ⟨rfl, _, rfl, .tier ht hs⟩
    · rename_i e1 e2 e3 e4; subst e1 e2 e3 e4; exact ⟨rfl, _, rfl, .span ht hs he⟩
    · rename_i e1 e2 e3 e4; subst e1 e2 e3 e4; exact ⟨rfl, _, rfl, .token ht hs he h1 h2⟩
  · rintro ⟨rfl, ty, rfl, h⟩
    cases h with
    | tier ht hs => exact .inr (.inr ⟨_, ht, hs, .inr (.inl rfl)⟩)
    | span ht hs he => exact .inr (.inr ⟨_, ht, hs, .inr (.inr ⟨_, _, he, .inr (.inl rfl)⟩)⟩)
    | token ht hs he h1 h2 => exact .inr (.inr ⟨_, ht, hs, .inr (.inr ⟨_, _, he, .inr (.inr ⟨_, h1, h2, rfl⟩)⟩)⟩)

theorem mentions_exbScript {ns : String} {tokenTier : List Char} {ids : List (List Char)} {ts : List XTier} {m : NodeId} :
    (∃ i ∈ exbScript ns tokenTier ids ts, i.Mentions m) ↔ XNode ns tokenTier ids ts m := by
  constructor
  · rintro ⟨i, hi, hm⟩
    rw [mem_exbScript] at hi
    rcases hi with ⟨x, hx, rfl | rfl⟩ | ⟨t, _, _, e, _, rfl⟩ | ⟨t, ht, hs, rfl | rfl | ⟨j, e, he, rfl | rfl | ⟨k, h1, h2, rfl⟩⟩⟩
    · obtain rfl : m = _ := hm; exact .time hx
    · exact hm.elim
    · exact hm.elim
    · obtain rfl : m = _ := hm; exact .tier ht hs
    · rcases hm with rfl | rfl
      · exact .root ht hs
      · exact .tier ht hs
    · obtain rfl : m = _ := hm; exact .span ht hs he
    · rcases hm with rfl | rfl
      · exact .tier ht hs
      · exact .span ht hs he
    · rcases hm with rfl | rfl
      · exact .span ht hs he
      · exact .covered ht hs (List.mem_of_getElem? he) h1 h2
  · intro h
    cases h with
    | time hx => exact ⟨_, mem_exbScript.2 (.inl ⟨_, hx, .inl rfl⟩), rfl⟩
    | root ht hs => exact ⟨_, mem_exbScript.2 (.inr (.inr ⟨_, ht, hs, .inr (.inl rfl)⟩)), .inl rfl⟩
    | tier ht hs => exact ⟨_, mem_exbScript.2 (.inr (.inr ⟨_, ht, hs, .inl rfl⟩)), rfl⟩
    | span ht hs he => exact ⟨_, mem_exbScript.2 (.inr (.inr ⟨_, ht, hs, .inr (.inr ⟨_, _, he, .inl rfl⟩)⟩)), rfl⟩
    | covered ht hs he h1 h2 =>
      obtain ⟨j, hj⟩ := List.mem_iff_getElem?.1 he
      exact ⟨_, mem_exbScript.2 (.inr (.inr ⟨_, ht, hs, .inr (.inr ⟨_, _, hj, .inr (.inr ⟨_, h1, h2, rfl⟩)⟩)⟩)), .inr rfl⟩

/-- what the script assigns -/
theorem write_exbScript {ns : String} {tokenTier : List Char} {ids : List (List Char)} {ts : List XTier} {m : NodeId} {k : String} {v : Val} :
    (∃ i ∈ exbScript ns tokenTier ids ts, i.write m k = some v) ↔
      (∃ t ∈ ts, ¬ SpanTier tokenTier t ∧ ∃ e ∈ t.events, m = tNode e.a ∧ annotation ns tokenTier t e = (k, v)) ∨
      (∃ t ∈ ts, SpanTier tokenTier t ∧ ((m = t.node ∧ find (XTier.attrs ns t) k = some v) ∨ ∃ (j : Nat) (e : XEvent), t.events[j]? = some e ∧ m = t.spanNode j ∧ find (XEvent.attrs ns e) k = some v)) := by
  constructor
  · rintro ⟨i, hi, hm⟩
    rw [mem_exbScript] at hi
    rcases hi with ⟨x, hx, rfl | rfl⟩ | ⟨t, ht, hs, e, he, rfl⟩ | ⟨t, ht, hs, rfl | rfl | ⟨j, e, he, rfl | rfl | ⟨k, h1, h2, rfl⟩⟩⟩
    · simp [Instr.write, find] at hm
    · simp [Instr.write] at hm
    · simp only [Instr.write] at hm
      split at hm
      · rename_i h
        obtain ⟨rfl, rfl⟩ := h
        exact .inl ⟨t, ht, hs, e, he, rfl, by rw [← Option.some.inj hm]⟩
      · simp at hm
    · simp only [Instr.write] at hm
      split at hm
      · rename_i h
        exact .inr ⟨t, ht, hs, .inl ⟨h, hm⟩⟩
      · simp at hm
    · simp [Instr.write] at hm
    · simp only [Instr.write] at hm
      split at hm
      · rename_i h
        exact .inr ⟨t, ht, hs, .inr ⟨j, e, he, h, hm⟩⟩
      · simp at hm
    · simp [Instr.write] at hm
    · simp [Instr.write] at hm
  · rintro (⟨t, ht, hs, e, he, rfl, ha⟩ | ⟨t, ht, hs, ⟨rfl, hf⟩ | ⟨j, e, he, rfl, hf⟩⟩)
    · refine ⟨_, mem_exbScript.2 (.inr (.inl ⟨t, ht, hs, e, he, rfl⟩)), ?_⟩
      simp [Instr.write, ha]
    · exact ⟨_, mem_exbScript.2 (.inr (.inr ⟨t, ht, hs, .inl rfl⟩)), by simp [Instr.write, hf]⟩
    · exact ⟨_, mem_exbScript.2 (.inr (.inr ⟨t, ht, hs, .inr (.inr ⟨j, e, he, .inl rfl⟩)⟩)), by simp [Instr.write, hf]⟩

theorem tokens_exbScript {ns : String} {tokenTier : List Char} {ids : List (List Char)} {ts : List XTier} : (exbScript ns tokenTier ids ts).flatMap Instr.newTokens = ids.map (fun i => NodeId.str (String.ofList i)) := by
  unfold exbScript
  rw [List.flatMap_append]
  have h1 : ((ids.flatMap (fun i => [Instr.node (.str (String.ofList i)) [ns] [], .token (.str (String.ofList i))])).flatMap Instr.newTokens) = ids.map (fun i => NodeId.str (String.ofList i)) := by
    induction ids with
    | nil => rfl
    | cons x ids ih => rw [List.flatMap_cons, List.flatMap_append, ih]; rfl
  rw [h1]
  have h2 : (ts.flatMap (tierScript ns tokenTier)).flatMap Instr.newTokens = [] := by
    rw [List.flatMap_eq_nil_iff]
    intro i hi
    have : i ∈ exbScript ns tokenTier [] ts := by unfold exbScript; simpa using hi
    rw [mem_exbScript] at this
    rcases this with ⟨x, hx, _⟩ | ⟨t, ht, hs, e, he, rfl⟩ | ⟨t, ht, hs, rfl | rfl | ⟨j, e, he, rfl | rfl | ⟨k, h1, h2, rfl⟩⟩⟩
    · simp at hx
    all_goals rfl
  rw [h2, List.append_nil]

end DG
end Dg
