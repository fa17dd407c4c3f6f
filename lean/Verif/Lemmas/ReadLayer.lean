import Verif.Spec.Layered
import Verif.Lemmas.Script
import Verif.Lemmas.View
import Verif.Lemmas.Upto

/-! Graphs made by readers are layers that can be merged. -/

namespace Dg
open Dict
namespace DG

theorem layeredNE_of {g : DG} (hl : NodesLayered False g) (h : ∀ n, g.HasNode n → ∃ l, g.NodeLayer n l) : NodesLayeredNE g := by
  intro n a ha
  obtain ⟨xs, h1, h2, -⟩ := hl n a ha
  refine ⟨xs, h1, h2, ?_⟩
  rintro rfl
  obtain ⟨l, b, hb, ys, h3, h4⟩ := h n (hasNode_iff'.2 ⟨a, ha⟩)
  rw [ha] at hb
  cases hb
  rw [h1] at h3
  cases h3
  cases h4

/-- each node that is mentioned gets a layer -/
theorem implicit_or_given {m : NodeId} : ∀ {s : List Instr} {has : NodeId → Prop}, ScriptOk has s → (∃ i ∈ s, i.Mentions m) → Implicit m s ∨ ∃ i ∈ s, ∃ l, i.GivesLayer m l
  | [], _, _, h => by obtain ⟨_, h, _⟩ := h; cases h
  | i :: s, has, ok, h => by
    by_cases hi : i.Mentions m
    · cases i with
      | node n ls at' =>
        obtain ⟨hls, -⟩ := ok.1
        obtain ⟨l, hl⟩ := List.exists_mem_of_ne_nil _ hls
        exact .inr ⟨_, List.mem_cons_self, .str l, hi, List.mem_map.2 ⟨l, hl, rfl⟩⟩
      | edge u v ls at' => exact .inl (.inl ⟨hi, trivial⟩)
      | attr n k v => exact hi.elim
      | token n => exact hi.elim
      | sentence n => exact hi.elim
    · have h' : ∃ i ∈ s, i.Mentions m := by
        obtain ⟨j, hj, hm⟩ := h
        rcases List.mem_cons.1 hj with rfl | hj
        · exact (hi hm).elim
        · exact ⟨j, hj, hm⟩
      rcases implicit_or_given ok.2 h' with h | ⟨j, hj, l, hl⟩
      · exact .inl (.inr ⟨hi, h⟩)
      · exact .inr ⟨j, List.mem_cons_of_mem _ hj, l, hl⟩

theorem Built.layeredNE {g g' : DG} {s : List Instr} (b : Built g s g') {has : NodeId → Prop} (ok : ScriptOk has s) (h : ∀ n, g.HasNode n → ∃ l, g.NodeLayer n l) : NodesLayeredNE g' := by
  refine layeredNE_of b.layered ?_
  intro n hn
  by_cases hg : g.HasNode n
  · obtain ⟨l, hl⟩ := h n hg
    exact ⟨l, (b.layer n l).2 (.inl hl)⟩
  · rcases (b.nodes n).1 hn with h1 | h1
    · exact (hg h1).elim
    · rcases implicit_or_given ok h1 with h2 | ⟨i, hi, l, hl⟩
      · exact ⟨_, (b.layer n _).2 (.inr (.inr ⟨hg, h2, rfl⟩))⟩
      · exact ⟨l, (b.layer n l).2 (.inr (.inl ⟨i, hi, hl⟩))⟩

theorem noInEdges_of {g : DG} {r : NodeId} (h : ∀ u a, ¬ g.EdgeWith u r a) (u : NodeId) (k : Key) : ¬ g.HasEdge u r k := by
  intro hk
  obtain ⟨a, ha⟩ := Option.isSome_iff_exists.1 hk
  exact h u a ⟨k, ha⟩

theorem noLoops_of {g : DG} (h : ∀ u a, ¬ g.EdgeWith u u a) (u : NodeId) (k : Key) : ¬ g.HasEdge u u k := by
  intro hk
  obtain ⟨a, ha⟩ := Option.isSome_iff_exists.1 hk
  exact h u a ⟨k, ha⟩

theorem hasTokens_map {α : Type} {g : DG} {f : α → NodeId} {s : α → String} : ∀ {xs : List α}, (∀ x ∈ xs, g.TokenStr (f x) (s x)) → List.Forall₂ g.TokenStr (xs.map f) (xs.map s)
  | [], _ => .nil
  | x :: _, h => .cons (h x List.mem_cons_self) (hasTokens_map (fun y hy => h y (List.mem_cons_of_mem _ hy)))

end DG
end Dg
