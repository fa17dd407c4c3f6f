import Verif.Lemmas.Script
import Verif.Lemmas.Span
import Verif.Lemmas.SpanTree
import Verif.Props.C16

/-! Graphs that a reader builds from the top to the bottom are trees. -/

namespace Dg
open Dict
namespace DG

/-- source and target of an `add_edge` call -/
def Instr.ends : Instr → Option (NodeId × NodeId)
  | .edge u v _ _ => some (u, v)
  | _ => none

/-- sources and targets of all `add_edge` calls -/
def edgesOf (s : List Instr) : List (NodeId × NodeId) := s.filterMap Instr.ends

/-- every edge leads from a node that was seen before to a new one -/
def TopDown : List NodeId → List (NodeId × NodeId) → Prop
  | _, [] => True
  | seen, (u, v) :: r => u ∈ seen ∧ v ∉ seen ∧ TopDown (v :: seen) r

theorem edgesOf_append (a b : List Instr) : edgesOf (a ++ b) = edgesOf a ++ edgesOf b := List.filterMap_append

theorem mem_edgesOf {s : List Instr} {u v : NodeId} : (u, v) ∈ edgesOf s ↔ ∃ ls at', .edge u v ls at' ∈ s := by
  unfold edgesOf
  rw [List.mem_filterMap]
  constructor
  · rintro ⟨i, hi, he⟩
    cases i with
    | edge u' v' ls at' =>
      obtain ⟨rfl, rfl⟩ := Prod.mk.inj (Option.some.inj he)
      exact ⟨ls, at', hi⟩
    | node => cases he
    | attr => cases he
    | token => cases he
    | sentence => cases he
  · rintro ⟨ls, at', h⟩
    exact ⟨_, h, rfl⟩

theorem countP_edgesOf (s : List Instr) (u v : NodeId) : s.countP (Instr.isEdge u v) = (edgesOf s).count (u, v) := by
  induction s with
  | nil => rfl
  | cons i s ih =>
    rw [List.countP_cons, ih]
    unfold edgesOf
    cases i with
    | edge u' v' ls at' =>
      rw [List.filterMap_cons_some (show Instr.ends (.edge u' v' ls at') = some (u', v') from rfl), List.count_cons]
      simp only [Instr.isEdge, decide_eq_true_eq, beq_iff_eq, Prod.mk.injEq]
      congr 1
      by_cases h : u = u' ∧ v = v'
      · rw [if_pos h, if_pos ⟨h.1.symm, h.2.symm⟩]
      · rw [if_neg h, if_neg (fun e => h ⟨e.1.symm, e.2.symm⟩)]
    | node => rw [List.filterMap_cons_none rfl]; simp [Instr.isEdge]
    | attr => rw [List.filterMap_cons_none rfl]; simp [Instr.isEdge]
    | token => rw [List.filterMap_cons_none rfl]; simp [Instr.isEdge]
    | sentence => rw [List.filterMap_cons_none rfl]; simp [Instr.isEdge]

/-- what `TopDown` means for the set of edges -/
theorem TopDown.facts : ∀ {es : List (NodeId × NodeId)} {seen : List NodeId}, TopDown seen es → (es.map Prod.snd).Nodup ∧ (∀ v ∈ es.map Prod.snd, v ∉ seen) ∧
    ∃ r : NodeId → Nat, (∀ m ∈ seen, r m = es.length) ∧ (∀ u v, (u, v) ∈ es → r v < r u)
  | [], seen, _ => ⟨by simp, by simp, fun _ => 0, by simp, by simp⟩
  | (x, y) :: es, seen, ⟨h1, h2, h3⟩ => by
    obtain ⟨a, b, r, c, d⟩ := h3.facts
    refine ⟨?_, ?_, fun m => if m ∈ seen then es.length + 1 else r m, ?_, ?_⟩
    · rw [List.map_cons, List.nodup_cons]
      exact ⟨fun h => b y h (by simp), a⟩
    · intro v hv
      rw [List.map_cons, List.mem_cons] at hv
      rcases hv with rfl | hv
      · exact h2
      · exact fun h => b v hv (List.mem_cons_of_mem _ h)
    · intro m hm
      simp [hm]
    · intro u v huv
      dsimp only
      have hle : ∀ m, r m ≤ es.length ∨ True := fun _ => .inr trivial
      rcases List.mem_cons.1 huv with h | h
      · obtain ⟨rfl, rfl⟩ := Prod.mk.inj h
        rw [if_pos h1, if_neg h2, c v (by simp)]
        omega
      · have hv : v ∉ seen := fun hv => b v (List.mem_map.2 ⟨_, h, rfl⟩) (List.mem_cons_of_mem _ hv)
        rw [if_neg hv]
        by_cases hu : u ∈ seen
        · rw [if_pos hu]
          have := d u v h
          have := c u (List.mem_cons_of_mem _ hu)
          omega
        · rw [if_neg hu]
          exact d u v h

/-- A graph built from the top to the bottom has no cycles and no node with two parents. -/
theorem Built.tree {g g' : DG} {s : List Instr} (hb : Built g s g') (h0 : ∀ u v, g.edgeCount u v = 0) {seen : List NodeId} (ht : TopDown seen (edgesOf s)) : g'.SpanAcyclic ∧ g'.UniqueSpanParent := by
  obtain ⟨h1, h2, r, _, h4⟩ := ht.facts
  have hno : ∀ u v a, ¬ g.EdgeWith u v a := by
    rintro u v a ⟨k, h⟩
    have := h0 u v
    unfold edgeCount at this
    unfold edgeAttrs at h
    cases hd : g.kd? u v with
    | none => rw [hd] at h; cases h
    | some d =>
      rw [hd] at h this
      simp only [Option.getD_some, Option.bind_some] at h this
      have := List.length_eq_zero_iff.1 this
      subst this
      cases h
  have hmem : ∀ {u v k a}, g'.edgeAttrs u v k = some a → (u, v) ∈ edgesOf s := by
    intro u v k a h
    rcases hb.edgeOf u v a ⟨k, h⟩ with h | ⟨ls, at', h, _⟩
    · exact absurd h (hno u v a)
    · exact mem_edgesOf.2 ⟨ls, at', h⟩
  constructor
  · apply acyclic_of_rank r
    rintro u v ⟨_, k, a, x, h, _⟩
    exact h4 u v (hmem h)
  · intro v u k a u' k' a' h _ h' _
    have e1 := hmem h
    have e2 := hmem h'
    have : u = u' := congrArg Prod.fst (List.inj_on_of_nodup_map h1 e1 e2 rfl)
    subst this
    refine ⟨rfl, hb.keyUnique (h0 u v) ?_ h h'⟩
    rw [countP_edgesOf]
    have hnd : (edgesOf s).Nodup := List.Nodup.of_map _ h1
    exact List.nodup_iff_count_le_one.1 hnd _

end DG
end Dg
