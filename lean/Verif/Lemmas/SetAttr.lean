import Verif.Lemmas.GraphInv
import Verif.Spec.Layers

namespace Dg
open Dict
namespace DG

theorem getAttr_eq (g : DG) (n : NodeId) (k : String) :
    g.getAttr n k = match g.nodeAttr n k with
      | none => .error .key
      | some v => .ok v := by
  unfold getAttr nodeAttr nodeAttrs
  cases find g.nodes n with
  | none => rfl
  | some a => rfl

theorem getAttr_ok {g : DG} {n : NodeId} {k : String} {v : Val} : g.getAttr n k = .ok v ↔ g.nodeAttr n k = some v := by
  rw [getAttr_eq]
  cases g.nodeAttr n k <;> simp

theorem getAttr_none {g : DG} {n : NodeId} {k : String} (h : g.nodeAttr n k = none) : g.getAttr n k = .error .key := by
  rw [getAttr_eq, h]

theorem nodeAttr_hasNode {g : DG} {n : NodeId} {k : String} {v : Val} (h : g.nodeAttr n k = some v) : ∃ a, g.nodeAttrs n = some a := by
  unfold nodeAttr at h
  cases h' : g.nodeAttrs n with
  | none => rw [h'] at h; simp at h
  | some a => exact ⟨a, rfl⟩

theorem setAttr_ok {g : DG} {n : NodeId} {a : Attrs} (h : g.nodeAttrs n = some a) (k : String) (v : Val) :
    g.setAttr n k v = .ok { g with nodes := Dict.put g.nodes n (Dict.put a k v) } := by
  unfold setAttr
  unfold nodeAttrs at h
  rw [h]

theorem nodeAttr_setAttr {g g' : DG} {n : NodeId} {k : String} {v : Val} (h : g.setAttr n k v = .ok g') (m : NodeId) (j : String) :
    g'.nodeAttr m j = if m = n ∧ j = k then some v else g.nodeAttr m j := by
  unfold setAttr at h
  cases ha : find g.nodes n with
  | none => rw [ha] at h; simp at h
  | some a =>
    rw [ha] at h
    simp only [Except.ok.injEq] at h
    subst h
    unfold nodeAttr nodeAttrs
    simp only [find_put]
    by_cases h1 : n = m
    · subst h1
      simp only [if_true, Option.bind_some, find_put, ha, true_and]
      by_cases h2 : k = j
      · subst h2; simp
      · have : ¬ j = k := fun e => h2 e.symm
        simp [h2, this]
    · have : ¬ m = n := fun e => h1 e.symm
      simp [h1, this]

theorem nodeAttrs_setAttr {g g' : DG} {n : NodeId} {k : String} {v : Val} (h : g.setAttr n k v = .ok g') (m : NodeId) (hm : m ≠ n) :
    g'.nodeAttrs m = g.nodeAttrs m := by
  unfold setAttr at h
  cases ha : find g.nodes n with
  | none => rw [ha] at h; simp at h
  | some a =>
    rw [ha] at h
    simp only [Except.ok.injEq] at h
    subst h
    unfold nodeAttrs
    exact find_put_ne _ _ (Ne.symm hm)

theorem setAttr_frame {g g' : DG} {n : NodeId} {k : String} {v : Val} (h : g.setAttr n k v = .ok g') :
    keys g'.nodes = keys g.nodes ∧ g'.adj = g.adj ∧ SameMeta g g' := by
  unfold setAttr at h
  cases ha : find g.nodes n with
  | none => rw [ha] at h; simp at h
  | some a =>
    rw [ha] at h
    simp only [Except.ok.injEq] at h
    subst h
    refine ⟨keys_put_of_mem _ _ _ ?_, rfl, rfl, rfl, rfl, rfl, rfl, rfl, rfl⟩
    exact (mem_keys_iff _ _).2 ⟨a, ha⟩

/-- different last characters -/
theorem qual_ne' {n m a b : String} (h : a.toList.getLast? ≠ b.toList.getLast?) (ha : a.toList ≠ []) (hb : b.toList ≠ []) :
    qual n a ≠ qual m b := by
  intro he
  have := congrArg (fun s => s.toList.getLast?) he
  unfold qual at this
  simp only [String.toList_append, List.getLast?_append] at this
  cases h1 : a.toList.getLast? with
  | none => exact ha (List.getLast?_eq_none_iff.1 h1)
  | some x =>
    cases h2 : b.toList.getLast? with
    | none => exact hb (List.getLast?_eq_none_iff.1 h2)
    | some y => rw [h1, h2] at this; simp at this; rw [h1, h2, this] at h; exact h rfl

theorem kd?_adj {g g' : DG} (h : g'.adj = g.adj) (u v : NodeId) : g'.kd? u v = g.kd? u v := by unfold kd?; rw [h]

theorem inv_setAttr {g g' : DG} (hi : Inv g) {n : NodeId} {k : String} {v : Val} (h : g.setAttr n k v = .ok g') : Inv g' := by
  obtain ⟨h1, h2, h3⟩ := setAttr_frame h
  unfold setAttr at h
  cases ha : find g.nodes n with
  | none => rw [ha] at h; simp at h
  | some a =>
    rw [ha] at h
    simp only [Except.ok.injEq] at h
    subst h
    refine inv_of_nodes hi (wf_setAttrs hi.wf ((mem_keys_iff _ _).2 ⟨a, ha⟩) _) (fun _ _ => rfl) ?_
    intro m b hb
    rw [nodeAttrs_putNodes] at hb
    split at hb
    · simp only [Option.some.injEq] at hb
      subst hb
      exact nodup_put (hi.attrs.node n a ha) _ _
    · exact hi.attrs.node m b hb

/-- writing an attribute other than `layers` keeps the layers of all nodes -/
theorem layers_setAttr {g g' : DG} {n : NodeId} {k : String} {v : Val} (hk : k ≠ "layers") (h : g.setAttr n k v = .ok g') (m : NodeId) :
    g'.nodeAttr m "layers" = g.nodeAttr m "layers" := by
  rw [nodeAttr_setAttr h, if_neg (fun x => hk x.2.symm)]

theorem qual_ne_layers {n a : String} (ha : a.toList.getLast? ≠ some 's') (h0 : a.toList ≠ []) : qual n a ≠ "layers" := by
  intro he
  have := congrArg (fun s => s.toList.getLast?) he
  unfold qual at this
  simp only [String.toList_append, List.getLast?_append] at this
  cases h1 : a.toList.getLast? with
  | none => exact h0 (List.getLast?_eq_none_iff.1 h1)
  | some x =>
    rw [h1] at this
    have h2 : "layers".toList.getLast? = some 's' := by decide
    rw [h2] at this
    simp at this
    subst this
    exact ha h1

theorem addOffsetsLoop_induct (P : DG → Prop) (ns : String)
    (hstep : ∀ g g' n k v, k ≠ "layers" → P g → g.setAttr n k v = .ok g' → P g') (ts : List NodeId) :
    ∀ g onset, P g → P (addOffsetsLoop ns g onset ts).1 := by
  induction ts with
  | nil => intro g _ h; exact h
  | cons t ts ih =>
    intro g onset hP
    unfold addOffsetsLoop
    split
    · exact hP
    · split
      · exact hP
      · rename_i len _ g' hg'
        apply ih
        unfold setOffsets at hg'
        cases h1 : g.setAttr t (qual ns "onset") (.atom (.int onset)) with
        | error e => rw [h1] at hg'; simp [bind, Except.bind] at hg'
        | ok g1 =>
          rw [h1] at hg'
          simp only [bind, Except.bind] at hg'
          exact hstep g1 g' _ _ _ (qual_ne_layers (by decide) (by decide)) (hstep g g1 _ _ _ (qual_ne_layers (by decide) (by decide)) hP h1) hg'

theorem addOffsets_induct (P : DG → Prop) (ns : Option String)
    (hstep : ∀ g g' n k v, k ≠ "layers" → P g → g.setAttr n k v = .ok g' → P g') (g : DG) (hP : P g) : P (g.addOffsets ns).1 :=
  addOffsetsLoop_induct P _ hstep _ g 0 hP

end DG
end Dg
