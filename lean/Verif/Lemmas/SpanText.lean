import Verif.Model.SpanText
import Verif.Spec.SpanText
import Verif.Lemmas.MergeAll
import Verif.Lemmas.Phrases

/-! What is known about renamed tokens after a merge (C80). -/

namespace Dg
open Dict
namespace DG

theorem renamed_copyLists (g o : DG) : (g.copyLists o).renamed = g.renamed := by
  have key : ∀ (c : Prop) [Decidable c] (a b : DG), a.renamed = g.renamed → b.renamed = g.renamed → (if c then a else b).renamed = g.renamed := by
    intro c _ a b ha hb
    split <;> assumption
  have k1 := key (o.name ≠ "" ∧ g.name = "") { g with name := o.name } g rfl rfl
  have k2 := fun c [Decidable c] => key c { (if o.name ≠ "" ∧ g.name = "" then { g with name := o.name } else g) with tokens := o.tokens } _ k1 k1
  exact key _ _ _ (k2 _) (k2 _)

theorem renamed_mergeRenamed {g o g' : DG} (ho : Inv o) (h : g.mergeRenamed o = (g', none)) : g'.renamed = g.renamed := by
  unfold mergeRenamed at h
  have r1 := (ran_addOtherNodes (g := g) ho).sameMeta
  split at h
  · simp at h
  · rename_i g1 h1; rw [h1] at r1
    have r2 := (ran_copyTokens o (keys o.nodes) (g := g1)).sameMeta
    split at h
    · simp at h
    · rename_i g2 h2; rw [h2] at r2
      have r3 := (ran_addOtherEdges (g := g2) ho).sameMeta
      split at h
      · simp at h
      · rename_i g3 h3; rw [h3] at r3
        have r4 := sameMeta_mergeRootnodes (g := g3.copyLists o) ho
        rw [h] at r4
        have r5 : (g3.copyLists o).renamed = g3.renamed := renamed_copyLists g3 o
        rw [r4.2.2.2.2.2.2, r5, r3.2.2.2.2.2.2, r2.2.2.2.2.2.2, r1.2.2.2.2.2.2]

/-- after a merge, the tokens of the layer are recorded as renamed to those of the document -/
theorem renamed_mergeGraphs {g o g' : DG} (ho : Inv o) {s : Sched} {m : Dict NodeId NodeId} (hm : createTokenMapping o g = .ok m) (h : g.mergeGraphs o s = (g', none)) :
    g'.renamed = some (upd (g.renamed.getD []) m) := by
  unfold mergeGraphs at h
  simp only [createTokenMapping_noteRoot, hm] at h
  have r2 := (ran_renameTokens ho.inv m s).inv ho.inv
  split at h
  · simp at h
  · rename_i o' ho'
    rw [ho'] at r2
    exact renamed_mergeRenamed r2 h

end DG
end Dg
