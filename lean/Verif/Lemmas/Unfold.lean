import Verif.Lemmas.Rose
import Verif.Props.C31

/-! Recursive output over a successors dict, for any function that formats a node. -/

namespace Dg
open Dict
namespace DG

/-- common shape of sentence2freqt and tree2bracket -/
def unfoldRun (emit : NodeId → List (List Char) → Except PyErr (List Char)) (succ : Dict NodeId (List NodeId)) : Nat → NodeId → Except PyErr (List Char)
  | 0, _ => .error .recursion
  | fuel + 1, root => do
    let strs ← mapE (unfoldRun emit succ fuel) ((find succ root).getD [])
    emit root strs

/-- the string of a tree -/
inductive Emits (emit : NodeId → List (List Char) → Except PyErr (List Char)) : Rose NodeId → List Char → Prop
  | node {n : NodeId} {kids : List (Rose NodeId)} {strs : List (List Char)} {s : List Char} : List.Forall₂ (Emits emit) kids strs → emit n strs = .ok s → Emits emit (.node n kids) s

/-- the tree unfolds the dict -/
def FollowsDict (succ : Dict NodeId (List NodeId)) (t : Rose NodeId) : Prop := ∀ n kids, Rose.Sub (.node n kids) t → kids.map Rose.root = (find succ n).getD []

theorem unfoldRun_tree {emit : NodeId → List (List Char) → Except PyErr (List Char)} {succ : Dict NodeId (List NodeId)} {fuel : Nat} : ∀ {n : NodeId} {s : List Char},
    unfoldRun emit succ fuel n = .ok s → ∃ t, t.root = n ∧ FollowsDict succ t ∧ Emits emit t s := by
  induction fuel with
  | zero => intro n s h; simp [unfoldRun] at h
  | succ fuel ih =>
    intro n s h
    rw [unfoldRun] at h
    cases hm : mapE (unfoldRun emit succ fuel) ((find succ n).getD []) with
    | error e => rw [hm] at h; simp [bind, Except.bind] at h
    | ok strs =>
      rw [hm] at h
      simp only [bind, Except.bind] at h
      rw [mapE_ok] at hm
      have key : ∀ {cs : List NodeId} {strs : List (List Char)}, List.Forall₂ (fun x y => unfoldRun emit succ fuel x = .ok y) cs strs →
          ∃ kids : List (Rose NodeId), kids.map Rose.root = cs ∧ (∀ k ∈ kids, FollowsDict succ k) ∧ List.Forall₂ (Emits emit) kids strs := by
        intro cs strs hf
        induction hf with
        | nil => exact ⟨[], rfl, by simp, .nil⟩
        | cons h1 _ ih2 =>
          obtain ⟨t, a, b, c⟩ := ih h1
          obtain ⟨ks, d, e, f⟩ := ih2
          refine ⟨t :: ks, by simp [a, d], ?_, .cons c f⟩
          intro k hk
          rcases List.mem_cons.1 hk with rfl | hk
          · exact b
          · exact e k hk
      obtain ⟨kids, a, b, c⟩ := key hm
      refine ⟨.node n kids, rfl, ?_, .node c h⟩
      intro m ks hs
      cases hs with
      | refl => exact a
      | kid hk hs => exact b _ hk m ks hs

theorem treeBelow_of_follows {g : DG} {source : NodeId} {ts : List NodeId} {d : Dict NodeId (List NodeId)} (hs : g.SuccessorsOf source ts d)
    {t : Rose NodeId} (ht : t.root = source) (hf : FollowsDict d t) : g.TreeBelow source ts t := by
  -- the relation given by the dict
  let R : NodeId → NodeId → Prop := fun n c => ∃ cs, find d n = some cs ∧ c ∈ cs
  have hR : ∀ n c, R n c → g.Covers source n ∧ c ≠ source ∧ g.Dominates n c := by
    rintro n c ⟨cs, h1, h2⟩
    exact ⟨((hs.keys n).1 ((mem_keys_iff _ _).2 ⟨cs, h1⟩)).1, (hs.children n cs h1 c).1 h2⟩
  have hR' : ∀ n c, g.Covers source n → c ≠ source → g.Dominates n c → R n c := by
    intro n c h1 h2 h3
    obtain ⟨cs, hc⟩ := (mem_keys_iff _ _).1 ((hs.keys n).2 ⟨h1, c, h2, h3⟩)
    exact ⟨cs, hc, (hs.children n cs hc c).2 ⟨h2, h3⟩⟩
  have hkids : ∀ n c, c ∈ (find d n).getD [] ↔ R n c := by
    intro n c
    cases hc : find d n with
    | none => simp [R, hc]
    | some cs => simp [R, hc]
  have hac : ∀ x, ¬ Relation.TransGen R x x := by
    intro x hx
    obtain ⟨b, _, hb⟩ := Relation.TransGen.tail'_iff.1 hx
    obtain ⟨h1, h2, h3⟩ := hR b x hb
    exact hs.noCycle x h2 (h1.tail h3) (Relation.TransGen.mono (fun a b hab => (hR a b hab).2.2) _ _ hx)
  have hone : ∀ a b c, R a c → R b c → a = b := by
    rintro a b c ⟨cs, h1, h2⟩ ⟨cs', h3, h4⟩
    exact hs.tree a cs b cs' c h1 h3 h2 h4
  have hstep : ∀ n kids, Rose.Sub (.node n kids) t → (kids.map Rose.root).Nodup ∧ ∀ k ∈ kids, R n k.root := by
    intro n kids hsub
    have e := hf n kids hsub
    refine ⟨?_, fun k hk => ?_⟩
    · rw [e]
      cases hc : find d n with
      | none => simp
      | some cs => exact hs.once n cs hc
    · rw [← hkids, ← e]
      exact List.mem_map_of_mem (f := Rose.root) hk
  obtain ⟨hnd, hreach⟩ := Rose.labels_nodup hac hone t hstep
  rw [ht] at hreach
  have hcov : ∀ n, Relation.ReflTransGen R source n → g.Covers source n := fun n h => Relation.ReflTransGen.mono (fun a b hab => (hR a b hab).2.2) _ _ h
  refine ⟨ht, hnd, ?_, ?_, ?_⟩
  · intro n
    refine ⟨fun h => hcov n (hreach n h), ?_⟩
    intro h
    induction h with
    | refl => rw [← ht]; exact Rose.root_mem_labels t
    | tail h1 h2 ih =>
      rename_i b c
      by_cases hcs : c = source
      · rw [hcs, ← ht]; exact Rose.root_mem_labels t
      · obtain ⟨kids, hsub⟩ := Rose.mem_labels.1 ih
        have hm : c ∈ kids.map Rose.root := by rw [hf b kids hsub, hkids]; exact hR' b c h1 hcs h2
        obtain ⟨k, hk, rfl⟩ := List.mem_map.1 hm
        refine Rose.mem_labels.2 ?_
        cases k with
        | node a ks => exact ⟨ks, Rose.Sub.trans (.kid hk (.refl _)) hsub⟩
  · intro n kids hsub c
    rw [hf n kids hsub, hkids]
    have hn : g.Covers source n := hcov n (hreach n (Rose.mem_labels.2 ⟨kids, hsub⟩))
    constructor
    · intro h; exact (hR n c h).2
    · rintro ⟨h1, h2⟩; exact hR' n c hn h1 h2
  · intro n kids hsub
    rw [hf n kids hsub]
    cases hc : find d n with
    | none => simp
    | some cs => exact hs.ordered n cs hc

/-- the recursion ends if it has enough stack and every node can be formatted -/
theorem unfoldRun_total {g : DG} (wf : WF g) {source : NodeId} {ts : List NodeId} {d : Dict NodeId (List NodeId)} (hs : g.SuccessorsOf source ts d)
    {emit : NodeId → List (List Char) → Except PyErr (List Char)} (he : ∀ n, g.Covers source n → ∀ strs, ∃ s, emit n strs = .ok s) {fuel : Nat} : ∀ {n : NodeId},
    g.Covers source n → relRank (fun a b => b ≠ source ∧ g.Covers source a ∧ g.Dominates a b) (keys g.nodes) n < fuel → ∃ s, unfoldRun emit d fuel n = .ok s := by
  have hac : Acyclic (fun a b => b ≠ source ∧ g.Covers source a ∧ g.Dominates a b) := by
    intro x hx
    obtain ⟨b, _, hb⟩ := Relation.TransGen.tail'_iff.1 hx
    exact hs.noCycle x hb.1 (hb.2.1.tail hb.2.2) (Relation.TransGen.mono (fun a b hab => hab.2.2) _ _ hx)
  induction fuel with
  | zero => intro n _ h; omega
  | succ fuel ih =>
    intro n hn hf
    rw [unfoldRun]
    have : ∃ ys, mapE (unfoldRun emit d fuel) ((find d n).getD []) = .ok ys := by
      apply mapE_total
      intro c hc
      cases hd : find d n with
      | none => rw [hd] at hc; simp at hc
      | some cs =>
        rw [hd] at hc
        obtain ⟨h1, h2⟩ := (hs.children n cs hd c).1 hc
        have := relRank_lt (l := keys g.nodes) hac (u := n) (v := c) ⟨h1, hn, h2⟩ (dominates_ends wf h2).2
        exact ih (hn.tail h2) (by omega)
    obtain ⟨ys, hy⟩ := this
    obtain ⟨s, hs'⟩ := he n hn ys
    exact ⟨s, by rw [hy]; exact hs'⟩

end DG
end Dg
