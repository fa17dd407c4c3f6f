import Verif.Lemmas.RelabelLoop
import Verif.Lemmas.Keeps

namespace Dg
open Dict
namespace DG

/-- `g'` results from `g` by a history of valid calls satisfying `P` -/
def Ran (P : Op → Prop) (g g' : DG) : Prop := ∃ ops, (∀ op ∈ ops, Op.Valid op ∧ P op) ∧ g' = g.run ops

theorem Ran.refl (P : Op → Prop) (g : DG) : Ran P g g := ⟨[], by simp, rfl⟩

theorem Ran.trans {P : Op → Prop} {g1 g2 g3 : DG} (h : Ran P g1 g2) (h' : Ran P g2 g3) : Ran P g1 g3 := by
  obtain ⟨o1, v1, rfl⟩ := h
  obtain ⟨o2, v2, rfl⟩ := h'
  refine ⟨o1 ++ o2, ?_, by simp [run]⟩
  intro op hm
  rcases List.mem_append.1 hm with h | h
  · exact v1 op h
  · exact v2 op h

theorem Ran.single {P : Op → Prop} {g : DG} (op : Op) (hv : op.Valid) (hp : P op) : Ran P g (g.step op).1 :=
  ⟨[op], by simpa using ⟨hv, hp⟩, rfl⟩

theorem Ran.lift {P : Op → Prop} {g g' : DG} (op : Op) (hv : op.Valid) (hp : P op) {r : Except PyErr DG}
    (hs : g.step op = g.lift r) (h : r = .ok g') : Ran P g g' := by
  have := Ran.single (g := g) op hv hp
  rw [hs, h] at this; exact this

theorem Ran.inv {P : Op → Prop} {g g' : DG} (h : Ran P g g') (hi : Inv g) : Inv g' := by
  obtain ⟨ops, hv, rfl⟩ := h
  exact inv_run hi (fun op hm => (hv op hm).1)

theorem Ran.mono {P Q : Op → Prop} {g g' : DG} (h : Ran P g g') (hpq : ∀ op, P op → Q op) : Ran Q g g' := by
  obtain ⟨ops, hv, rfl⟩ := h
  exact ⟨ops, fun op hm => ⟨(hv op hm).1, hpq op (hv op hm).2⟩, rfl⟩

theorem Ran.reachable {P : Op → Prop} {g g' : DG} (h : Ran P g g') (hr : Reachable g) : Reachable g' := by
  obtain ⟨ops, hv, rfl⟩ := h
  obtain ⟨name, ns, root, ops0, hv0, rfl⟩ := hr
  refine ⟨name, ns, root, ops0 ++ ops, ?_, by simp [run]⟩
  intro op hm
  rcases List.mem_append.1 hm with h | h
  · exact hv0 op h
  · exact (hv op h).1

theorem Ran.keeps {g g' : DG} (h : Ran (fun op => op.Grows ∧ op.SafeLayers) g g') (hi : Inv g) : Keeps g g' ∧ KeepsNodeLayers g g' := by
  obtain ⟨ops, hv, rfl⟩ := h
  induction ops generalizing g with
  | nil => exact ⟨Keeps.refl g, fun _ _ h => h⟩
  | cons op ops ih =>
    obtain ⟨h1, h2, h3⟩ := hv op (by simp)
    have hs := keeps_step hi h1 h2
    have := ih (inv_step hi h1) (fun o ho => hv o (List.mem_cons_of_mem _ ho))
    exact ⟨hs.1.trans this.1, fun n l h => this.2 n l (hs.2 h3 n l h)⟩

theorem ran_relabelOne {g : DG} (hi : Inv g) (old new : NodeId) : Ran (fun _ => True) g (g.relabelOne old new).1 := by
  unfold relabelOne
  split
  · exact Ran.refl _ _
  rename_i a ha
  split
  · exact Ran.refl _ _
  rename_i layers _
  split
  · exact Ran.refl _ _
  rename_i g1 h1
  have r1 : Ran (fun _ => True) g g1 := Ran.lift (.addNode new layers (.dict a) []) ⟨hi.attrs.node _ _ ha, by simp [keys]⟩ trivial rfl h1
  have hi1 := r1.inv hi
  split
  · exact r1
  rename_i g2 h2
  have r2 : Ran (fun _ => True) g1 g2 := Ran.lift (.removeNode old) trivial trivial rfl h2
  refine (r1.trans r2).trans (Ran.single (g := g2) (.addEdgesFrom (g1.newEdges old new) .none []) ⟨trivial, by simp [keys], ?_⟩ trivial)
  intro it hm
  unfold newEdges at hm
  simp only [List.mem_append, List.mem_map] at hm
  rcases hm with ⟨⟨u, v, k, b⟩, he, rfl⟩ | ⟨⟨u, v, k, b⟩, he, rfl⟩
  · exact hi1.attrs.edge _ _ _ _ ((mem_outEdges hi1.wf _ _ _ _ _).1 he).2
  · exact hi1.attrs.edge _ _ _ _ ((mem_inEdges hi1.wf _ _ _ _ _).1 he).2

theorem ran_relabelLoop (m : Dict NodeId NodeId) (l : List NodeId) : ∀ {g : DG}, Inv g → Ran (fun _ => True) g (relabelLoop m g l).1 := by
  induction l with
  | nil => intro g _; exact Ran.refl _ _
  | cons o l ih =>
    intro g hi
    unfold relabelLoop
    split
    · exact ih hi
    · rename_i new _
      have h := ran_relabelOne hi o new
      split
      · rename_i g' hg'
        rw [hg'] at h
        exact h.trans (ih (h.inv hi))
      · rename_i g' e hg'
        rw [hg'] at h; exact h

theorem ran_relabelInplace {g : DG} (hi : Inv g) (m : Dict NodeId NodeId) (o : Option (List NodeId)) : Ran (fun _ => True) g (g.relabelInplace m o).1 := by
  cases o with
  | none => exact Ran.refl _ _
  | some l => exact ran_relabelLoop m l hi

theorem ran_renameTokens {g : DG} (hi : Inv g) (m : Dict NodeId NodeId) (s : Sched) : Ran (fun _ => True) g (g.renameTokens m s).1 := by
  unfold renameTokens
  have h := ran_relabelInplace hi m s.order
  split
  · rename_i g' e hg'; rw [hg'] at h; exact h
  · rename_i g' hg'; rw [hg'] at h
    split
    · exact h
    · exact h.trans (Ran.single (g := g') (.setTokens s.vals) trivial trivial)

/-- calls that only add -/
abbrev GrowSafe (op : Op) : Prop := op.Grows ∧ op.SafeLayers

/-- not a direct assignment to an attribute of the graph object -/
def Op.NoMeta : Op → Prop
  | .setTokens _ | .setSentences _ | .setName _ | .setMergedRoots _ | .setRenamed _ => False
  | _ => True

/-- calls that only add nodes, edges, and attributes -/
abbrev GrowPlain (op : Op) : Prop := (op.Grows ∧ op.SafeLayers) ∧ op.NoMeta
theorem Ran.safe {g g' : DG} (h : Ran GrowPlain g g') : Ran GrowSafe g g' := h.mono (fun _ h => h.1)

theorem ran_noteRoot (g other : DG) : Ran GrowSafe g (g.noteRoot other) :=
  Ran.single (g := g) (.setMergedRoots ((g.mergedRoots.getD []) ++ [other.root])) trivial ⟨trivial, trivial⟩

theorem ran_updRenamed (g : DG) (m : Dict NodeId NodeId) : Ran GrowSafe g (g.updRenamed m) :=
  Ran.single (g := g) (.setRenamed (Dict.upd (g.renamed.getD []) m)) trivial ⟨trivial, trivial⟩

theorem ran_setAttr {g g' : DG} {n : NodeId} {k : String} {v : Val} (hk : k ≠ "layers") (h : g.setAttr n k v = .ok g') : Ran GrowPlain g g' :=
  Ran.lift (.setAttr n k v) hk ⟨⟨trivial, trivial⟩, trivial⟩ rfl h

theorem qual_ne_plain {ns a b : String} (hb : ':' ∉ b.toList) : qual ns a ≠ b := by
  intro h
  apply hb
  rw [← h]
  unfold qual
  simp

theorem copyToken_ok {other g g' : DG} {n : NodeId} (h : copyToken other g n = .ok g') :
    g' = g ∨ (find ((g.nodeAttrs n).getD []) (qual g.ns "token") = none ∧ ∃ tok, other.nodeAttr n (qual other.ns "token") = some tok ∧
      g.setAttr n (qual g.ns "token") tok = .ok g') := by
  unfold copyToken at h
  simp only [bind, Except.bind] at h
  cases h1 : other.istoken n none with
  | error e => rw [h1] at h; simp at h
  | ok b =>
    rw [h1] at h; simp only at h
    cases b with
    | false => simp at h; exact Or.inl h.symm
    | true =>
      simp only [if_true] at h
      cases h2 : g.lacksToken n with
      | error e => rw [h2] at h; simp at h
      | ok c =>
        rw [h2] at h; simp only at h
        cases c with
        | false => simp at h; exact Or.inl h.symm
        | true =>
          simp only [if_true] at h
          cases h3 : other.getToken n with
          | error e => rw [h3] at h; simp at h
          | ok tok =>
            rw [h3] at h
            right
            refine ⟨?_, tok, getAttr_ok.1 h3, h⟩
            unfold lacksToken at h2
            split at h2
            · simp at h2
            · rename_i a ha
              simp at h2
              unfold nodeAttrs
              rw [ha]
              simpa using (find_eq_none_iff _ _).2 ((has_false_iff _ _).1 h2)

theorem ran_copyTokens (other : DG) (l : List NodeId) : ∀ {g : DG}, Ran GrowPlain g (copyTokens other g l).1 := by
  induction l with
  | nil => intro g; exact Ran.refl _ _
  | cons n l ih =>
    intro g
    unfold copyTokens
    cases h : copyToken other g n with
    | error e => exact Ran.refl _ _
    | ok g' =>
      refine Ran.trans ?_ ih
      rcases copyToken_ok h with rfl | ⟨_, tok, _, h⟩
      · exact Ran.refl _ _
      · exact ran_setAttr (qual_ne_plain (by decide)) h

theorem ran_copyLists (g other : DG) : Ran GrowSafe g (g.copyLists other) := by
  unfold copyLists
  simp only
  refine Ran.trans (g2 := if other.name ≠ "" ∧ g.name = "" then { g with name := other.name } else g) ?_ (Ran.trans (g2 :=
    if other.tokens ≠ [] ∧ (if other.name ≠ "" ∧ g.name = "" then { g with name := other.name } else g).tokens = []
    then { (if other.name ≠ "" ∧ g.name = "" then { g with name := other.name } else g) with tokens := other.tokens }
    else (if other.name ≠ "" ∧ g.name = "" then { g with name := other.name } else g)) ?_ ?_)
  · split
    · exact Ran.single (g := g) (.setName other.name) trivial ⟨trivial, trivial⟩
    · exact Ran.refl _ _
  · generalize (if other.name ≠ "" ∧ g.name = "" then { g with name := other.name } else g) = g1
    split
    · exact Ran.single (g := g1) (.setTokens other.tokens) trivial ⟨trivial, trivial⟩
    · exact Ran.refl _ _
  · generalize (if other.tokens ≠ [] ∧ (if other.name ≠ "" ∧ g.name = "" then { g with name := other.name } else g).tokens = []
      then { (if other.name ≠ "" ∧ g.name = "" then { g with name := other.name } else g) with tokens := other.tokens }
      else (if other.name ≠ "" ∧ g.name = "" then { g with name := other.name } else g)) = g2
    split
    · exact Ran.single (g := g2) (.setSentences other.sentences) trivial ⟨trivial, trivial⟩
    · exact Ran.refl _ _

theorem mergeMeta_ok {g g1 other : DG} (h : g.mergeMeta other = .ok g1) : g1 = g ∨ ∃ v, g.setAttr g.root "metadata" v = .ok g1 := by
  unfold mergeMeta at h
  split at h
  · simp at h
  · split at h
    · simp at h; exact Or.inl h.symm
    · simp only [bind, Except.bind] at h
      split at h
      · simp at h
      · split at h
        · simp at h
        · exact Or.inr ⟨_, h⟩

theorem ran_moveRootEdges (es : List Edge) (hv : ∀ e ∈ es, (keys e.2.2.2).Nodup) : ∀ {g : DG}, Ran GrowPlain g (moveRootEdges g es).1 := by
  induction es with
  | nil => intro g; exact Ran.refl _ _
  | cons e es ih =>
    intro g
    unfold moveRootEdges
    split
    · exact Ran.refl _ _
    · rename_i g' hg'
      exact (Ran.lift (.addEdge g.root e.2.1 (.atom .none) none (.dict e.2.2.2) []) ⟨hv e (by simp), by simp [keys]⟩ ⟨⟨trivial, trivial⟩, trivial⟩ rfl hg').trans
        (ih (fun e he => hv e (List.mem_cons_of_mem _ he)))

/-- merging is a history of adding calls, followed by the removal of the other root if nothing failed -/
theorem mergeRootnodes_trace {g other : DG} (ho : Inv other) :
    ∃ g2, Ran GrowSafe g g2 ∧ ((g.mergeRootnodes other).1 = g2 ∨ g2.removeNode other.root = .ok (g.mergeRootnodes other).1) := by
  unfold mergeRootnodes
  cases h1 : g.mergeMeta other with
  | error e => exact ⟨g, Ran.refl _ _, Or.inl rfl⟩
  | ok g1 =>
    have r1 : Ran GrowSafe g g1 := by
      rcases mergeMeta_ok h1 with rfl | ⟨v, h⟩
      · exact Ran.refl _ _
      · exact (ran_setAttr (by decide) h).safe
    simp only
    split
    · have r2 := ran_moveRootEdges (g := g1) (other.outEdges other.root)
        (fun ⟨u, v, k, b⟩ he => ho.attrs.edge _ _ _ _ ((mem_outEdges ho.wf _ _ _ _ _).1 he).2) |>.safe
      split
      · rename_i g2 e h2
        rw [h2] at r2
        exact ⟨g2, r1.trans r2, Or.inl rfl⟩
      · rename_i g2 h2
        rw [h2] at r2
        refine ⟨g2, r1.trans r2, ?_⟩
        cases h3 : g2.removeNode other.root with
        | error e => left; rfl
        | ok g3 => right; rfl
    · exact ⟨g1, r1, Or.inl rfl⟩

theorem ran_addOtherNodes {g other : DG} (ho : Inv other) :
    Ran GrowPlain g (g.addNodesFrom [] (other.nodes.map (fun p => NodeItem.tup p.1 p.2))).1 := by
  have hv : Op.Valid (.addNodesFrom (other.nodes.map (fun p => NodeItem.tup p.1 p.2)) []) := by
    refine ⟨by simp [keys], ?_⟩
    intro it hm
    obtain ⟨⟨n, a⟩, hp, rfl⟩ := List.mem_map.1 hm
    exact ho.attrs.node n a (mem_find ho.wf.nodesNodup hp)
  exact Ran.single (g := g) _ hv ⟨⟨trivial, by simp [Op.SafeLayers, keys]⟩, trivial⟩

theorem ran_addOtherEdges {g other : DG} (ho : Inv other) :
    Ran GrowPlain g (g.addEdgesFrom (other.edges.map (fun e => EdgeItem.e3 e.1 e.2.1 e.2.2.2)) .none []).1 := by
  have hv : Op.Valid (.addEdgesFrom (other.edges.map (fun e => EdgeItem.e3 e.1 e.2.1 e.2.2.2)) .none []) := by
    refine ⟨trivial, by simp [keys], ?_⟩
    intro it hm
    obtain ⟨⟨u, v, k, a⟩, hp, rfl⟩ := List.mem_map.1 hm
    exact ho.attrs.edge u v k a ((mem_edges_iff ho.wf _ _ _ _).1 hp)
  exact Ran.single (g := g) _ hv ⟨⟨trivial, trivial⟩, trivial⟩

theorem mergeRenamed_trace {g other : DG} (ho : Inv other) :
    ∃ g2, Ran GrowSafe g g2 ∧ ((g.mergeRenamed other).1 = g2 ∨ g2.removeNode other.root = .ok (g.mergeRenamed other).1) := by
  unfold mergeRenamed
  have r1 := (ran_addOtherNodes (g := g) ho).safe
  split
  · rename_i g1 e h1; rw [h1] at r1; exact ⟨g1, r1, Or.inl rfl⟩
  · rename_i g1 h1; rw [h1] at r1
    have r2 := (ran_copyTokens other (keys other.nodes) (g := g1)).safe
    split
    · rename_i g2 e h2; rw [h2] at r2; exact ⟨g2, r1.trans r2, Or.inl rfl⟩
    · rename_i g2 h2; rw [h2] at r2
      have r3 := (ran_addOtherEdges (g := g2) ho).safe
      split
      · rename_i g3 e h3; rw [h3] at r3; exact ⟨g3, (r1.trans r2).trans r3, Or.inl rfl⟩
      · rename_i g3 h3; rw [h3] at r3
        obtain ⟨g4, r4, h4⟩ := mergeRootnodes_trace (g := g3.copyLists other) ho
        exact ⟨g4, (((r1.trans r2).trans r3).trans (ran_copyLists _ _)).trans r4, h4⟩

/-! root and namespace never change -/

theorem sameMeta_step (g : DG) (op : Op) (hop : op.NoMeta) : SameMeta g (g.step op).1 := by
  have hlift : ∀ r : Except PyErr DG, (∀ g', r = .ok g' → SameMeta g g') → SameMeta g (g.lift r).1 := by
    intro r h; cases r with
    | ok g' => exact h g' rfl
    | error e => exact SameMeta.refl g
  have hprec : ∀ ts (g1 : DG), SameMeta g1 (addPrecedenceLoop g1 ts).1 := by
    intro ts
    induction ts with
    | nil => intro g1; exact SameMeta.refl g1
    | cons a ts ih =>
      intro g1
      cases ts with
      | nil => exact SameMeta.refl g1
      | cons b ts =>
        unfold addPrecedenceLoop
        split
        · rename_i g' hg'
          exact (sameMeta_addEdge' hg').trans (ih g')
        · exact SameMeta.refl g1
  have same : ∀ g1 g2 : DG, g2.name = g1.name → g2.ns = g1.ns → g2.root = g1.root → g2.tokens = g1.tokens → g2.sentences = g1.sentences →
      g2.mergedRoots = g1.mergedRoots → g2.renamed = g1.renamed → SameMeta g1 g2 := fun _ _ a b c d e f h => ⟨a, b, c, d, e, f, h⟩
  cases op with
  | addNode n l ad at' =>
    apply hlift; intro g' h
    obtain ⟨ls, A, hls, hA, (⟨_, rfl⟩ | ⟨old, ex, hold, hex, rfl⟩)⟩ := addNode_ok h <;> exact same _ _ rfl rfl rfl rfl rfl rfl rfl
  | addNodesFrom its at' =>
    refine addNodesFrom_induct (fun g' => SameMeta g g') at' its ?_ g (SameMeta.refl g)
    intro g1 g2 it _ hh h
    refine hh.trans ?_
    cases it with
    | id n => rcases addNodeItem_id_ok h with ⟨_, rfl⟩ | ⟨_, _, rfl⟩ <;> exact same _ _ rfl rfl rfl rfl rfl rfl rfl
    | tup n d => obtain ⟨_, _, _, (⟨_, rfl⟩ | ⟨_, _, _, _, rfl⟩)⟩ := addNodeItem_tup_ok h <;> exact same _ _ rfl rfl rfl rfl rfl rfl rfl
  | addEdge u v l k ad at' => exact hlift _ (fun g' h => sameMeta_addEdge' h)
  | addEdgesFrom its ad at' =>
    simp only [step]
    rcases addEdgesFrom_eq (g := g) (its := its) (ad := ad) (attr := at') with ⟨_, h⟩ | ⟨A, h, hA⟩
    · rw [h]; exact SameMeta.refl g
    · rw [h]
      refine addEdgesLoop_induct (fun g' => SameMeta g g') A its ?_ g (SameMeta.refl g)
      intro g1 it _ hh
      cases it with
      | e3 u v d => exact hh.trans (sameMeta_addEdgeItem g1 A u v none d)
      | e4 u v k d => exact hh.trans (sameMeta_addEdgeItem g1 A u v (some k) d)
      | badLen => exact hh
  | addLayer e l =>
    simp only [step]
    unfold addLayer
    split
    · split
      · split
        · exact SameMeta.refl g
        · split <;> exact same _ _ rfl rfl rfl rfl rfl rfl rfl
      · split
        · exact SameMeta.refl g
        · exact sameMeta_putKeyDict _ _ _ _
    · exact SameMeta.refl g
  | removeNode n =>
    apply hlift; intro g' h
    unfold removeNode at h; split at h
    · injection h with h; subst h; exact same _ _ rfl rfl rfl rfl rfl rfl rfl
    · simp at h
  | addPrecedence =>
    simp only [step]
    unfold addPrecedenceRelations
    split
    · split
      · rename_i g' hg'
        exact (sameMeta_addEdge' hg').trans (hprec _ g')
      · exact SameMeta.refl g
    · exact SameMeta.refl g
  | addOffsets ns =>
    refine addOffsets_induct (fun g' => SameMeta g g') ns (fun g1 g2 n k v hk h1 h2 => ?_) g (SameMeta.refl g)
    unfold setAttr at h2; split at h2
    · simp at h2
    · injection h2 with h2; subst h2; exact h1.trans (same _ _ rfl rfl rfl rfl rfl rfl rfl)
  | setAttr n k v =>
    apply hlift; intro g' h
    unfold setAttr at h; split at h
    · simp at h
    · injection h with h; subst h; exact same _ _ rfl rfl rfl rfl rfl rfl rfl
  | setTokens ts => exact hop.elim
  | setSentences ts => exact hop.elim
  | setName s => exact hop.elim
  | setMergedRoots l => exact hop.elim
  | setRenamed m => exact hop.elim

theorem root_step (g : DG) (op : Op) : (g.step op).1.root = g.root ∧ (g.step op).1.ns = g.ns := by
  by_cases h : op.NoMeta
  · have := sameMeta_step g op h; exact ⟨this.2.2.1, this.2.1⟩
  · cases op <;> first | exact ⟨rfl, rfl⟩ | exact (h trivial).elim

theorem Ran.sameMeta {g g' : DG} (h : Ran GrowPlain g g') : SameMeta g g' := by
  obtain ⟨ops, hv, rfl⟩ := h
  induction ops generalizing g with
  | nil => exact SameMeta.refl g
  | cons op ops ih => exact (sameMeta_step g op (hv op (by simp)).2.2).trans (ih (fun o ho => hv o (List.mem_cons_of_mem _ ho)))

theorem Ran.root {P : Op → Prop} {g g' : DG} (h : Ran P g g') : g'.root = g.root ∧ g'.ns = g.ns := by
  obtain ⟨ops, _, rfl⟩ := h
  induction ops generalizing g with
  | nil => exact ⟨rfl, rfl⟩
  | cons op ops ih =>
    have h1 := root_step g op
    have h2 := ih (g := (g.step op).1) (by rename_i h; exact fun o ho => h o (List.mem_cons_of_mem _ ho))
    exact ⟨h2.1.trans h1.1, h2.2.trans h1.2⟩

theorem mergeGraphs_trace {g other : DG} (ho : Inv other) (s : Sched) :
    ∃ g2, Ran GrowSafe g g2 ∧ ((g.mergeGraphs other s).1 = g2 ∨ g2.removeNode other.root = .ok (g.mergeGraphs other s).1) := by
  unfold mergeGraphs
  simp only
  split
  · exact ⟨_, ran_noteRoot g other, Or.inl rfl⟩
  · rename_i m hm
    have r1 := (ran_noteRoot g other).trans (ran_updRenamed _ m)
    have r2 := ran_renameTokens ho m s
    split
    · exact ⟨_, r1, Or.inl rfl⟩
    · rename_i o' h2
      rw [h2] at r2
      obtain ⟨g2, r3, h3⟩ := mergeRenamed_trace (g := (g.noteRoot other).updRenamed m) (r2.inv ho)
      rw [r2.root.1] at h3
      exact ⟨g2, r1.trans r3, h3⟩

end DG
end Dg
