import Verif.Lemmas.IntLabels

/-! C71: convert_node_labels_to_integers. -/

namespace Dg
open Dict
namespace DG

theorem setLabels_ok (a : String) (m : Dict NodeId NodeId) (nv : (vals m).Nodup) (h : DG) (hn : ∀ x ∈ vals m, h.HasNode x) :
    ∃ h', setLabels a m h = .ok h' ∧ keys h'.nodes = keys h.nodes ∧ h'.adj = h.adj ∧ SameMeta h h' ∧
      (∀ p ∈ m, h'.nodeAttr p.2 a = some p.1.value) ∧ ∀ n j, j ≠ a ∨ n ∉ vals m → h'.nodeAttr n j = h.nodeAttr n j := by
  induction m generalizing h with
  | nil => exact ⟨h, rfl, rfl, rfl, ⟨rfl, rfl, rfl, rfl, rfl, rfl, rfl⟩, by simp, fun _ _ _ => rfl⟩
  | cons p m ih =>
    simp only [vals, List.map_cons, List.nodup_cons] at nv
    obtain ⟨b, hb⟩ := (mem_keys_iff _ _).1 (hn p.2 (by simp [vals]))
    have h1 := setAttr_ok (g := h) (n := p.2) hb a p.1.value
    obtain ⟨f1, f2, f3⟩ := setAttr_frame h1
    obtain ⟨h', e1, e2, e3, e4, e5, e6⟩ := ih nv.2 _ (by
      intro x hx
      unfold HasNode
      rw [f1]
      exact hn x (List.mem_cons_of_mem _ hx))
    refine ⟨h', ?_, e2.trans f1, e3.trans f2, ?_, ?_, ?_⟩
    · unfold setLabels at *
      rw [List.foldlM_cons, h1]
      exact e1
    · exact e4
    · intro q hq
      rcases List.mem_cons.1 hq with rfl | hq
      · rw [e6 _ _ (Or.inr nv.1), nodeAttr_setAttr h1]
        simp
      · exact e5 q hq
    · intro n j hj
      rw [e6 n j (hj.imp id (fun h h' => h (by simp only [vals, List.map_cons, List.mem_cons] at *; exact Or.inr h'))), nodeAttr_setAttr h1]
      rw [if_neg]
      rintro ⟨rfl, rfl⟩
      rcases hj with hj | hj
      · exact hj rfl
      · exact hj (by simp [vals])

theorem nodeLayer_iff (g : DG) (n : NodeId) (x : Atom) : g.NodeLayer n x ↔ ∃ xs, g.nodeAttr n "layers" = some (.set xs) ∧ x ∈ xs := by
  unfold NodeLayer AttrsLayer nodeAttr
  constructor
  · rintro ⟨a, h1, xs, h2, h3⟩
    exact ⟨xs, by rw [h1]; exact h2, h3⟩
  · rintro ⟨xs, h1, h2⟩
    cases h : g.nodeAttrs n with
    | none => rw [h] at h1; simp at h1
    | some a => rw [h] at h1; exact ⟨a, rfl, xs, h1, h2⟩

theorem labelValue (n : NodeId) : LabelValue n n.value := by
  cases n
  · exact .int _
  · exact .str _

/-- the renamed graph, with the new name and the old labels, is the numbered graph -/
theorem intNumbered_of {g h0 : DG} (hi : Inv g) {l : List NodeId} (hl : l.Perm (keys g.nodes)) {first : Int} {attr : Option String} (hattr : attr ≠ some "layers")
    (hren : Renamed (applyMap (intMapping first l)) g h0) :
    ∃ h, (match attr with
      | none => Except.ok { h0 with name := "(" ++ g.name ++ ")_with_int_labels" }
      | some a => setLabels a (intMapping first l) { h0 with name := "(" ++ g.name ++ ")_with_int_labels" }) = .ok h ∧
      Numbered g l first attr h ∧ h.root = g.root ∧ h.tokens = g.tokens ∧ h.sentences = g.sentences := by
  have wf := hi.wf
  have nd : l.Nodup := hl.nodup_iff.2 wf.nodesNodup
  have happ : ∀ (i : Nat) n, l[i]? = some n → applyMap (intMapping first l) n = .int (first + i) := by
    intro i n h; unfold applyMap; rw [find_intMapping nd h]; rfl
  have hnode : ∀ (i : Nat) n, l[i]? = some n → g.HasNode n := fun i n h => hl.mem_iff.1 (List.mem_of_getElem? h)
  have hidx : ∀ n, g.HasNode n → ∃ i : Nat, l[i]? = some n := fun n h => List.mem_iff_getElem?.1 (hl.mem_iff.2 h)
  have hinj : ∀ (i j : Nat) u, l[i]? = some u → l[j]? = some u → i = j := by
    intro i j u h1 h2
    obtain ⟨q1, q2⟩ := List.getElem?_eq_some_iff.1 h1
    obtain ⟨q3, q4⟩ := List.getElem?_eq_some_iff.1 h2
    exact (List.Nodup.getElem_inj_iff nd).1 (q2.trans q4.symm)
  -- the base: everything but the old labels
  have base : ∀ h : DG, keys h.nodes = keys h0.nodes → h.adj = h0.adj → h.name = "(" ++ g.name ++ ")_with_int_labels" → h.ns = h0.ns →
      (∀ n j, some j ≠ attr → h.nodeAttr n j = h0.nodeAttr n j) →
      (∀ (i : Nat) n a, l[i]? = some n → attr = some a → ∃ v, h.nodeAttr (.int (first + i)) a = some v ∧ LabelValue n v) → Numbered g l first attr h := by
    intro h hk ha hname hns hat hlab
    have hn : ∀ x, h.HasNode x ↔ h0.HasNode x := by intro x; unfold HasNode; rw [hk]
    have hea : ∀ u v k, h.edgeAttrs u v k = h0.edgeAttrs u v k := by intro u v k; unfold edgeAttrs; rw [kd?_adj ha]
    have hattrs : ∀ (i : Nat) n, l[i]? = some n → ∃ a a', g.nodeAttrs n = some a ∧ h0.nodeAttrs (.int (first + i)) = some a' ∧ SameAttrs a a' := by
      intro i n hin
      obtain ⟨a, hga⟩ := (mem_keys_iff _ _).1 (hnode i n hin)
      obtain ⟨a', e1, e2⟩ := hren.nodes n a hga
      rw [happ i n hin] at e1
      exact ⟨a, a', hga, e1, e2⟩
    refine ⟨?_, ?_, ?_, hlab, ?_, ?_, hname, hns.trans hren.rest.2.1⟩
    · intro x
      rw [hn]
      constructor
      · intro hx
        obtain ⟨n, h1, h2⟩ := hren.noOtherNodes x hx
        obtain ⟨i, hi⟩ := hidx n h1
        exact ⟨i, (List.getElem?_eq_some_iff.1 hi).1, by rw [← h2, happ i n hi]⟩
      · rintro ⟨i, hi, rfl⟩
        have hin : l[i]? = some l[i] := by simp [hi]
        rw [← happ i _ hin]
        exact hren.hasNode (hnode i _ hin)
    · intro i n hin x hx hxa
      rw [hat _ _ hxa]
      obtain ⟨a, a', h1, h2, h3⟩ := hattrs i n hin
      unfold nodeAttr
      rw [h1, h2]
      exact (h3.1 x hx).symm
    · intro i n hin x
      rw [nodeLayer_iff, hat _ _ (fun e => hattr e.symm), ← nodeLayer_iff]
      obtain ⟨a, a', h1, h2, h3⟩ := hattrs i n hin
      unfold NodeLayer
      rw [h1, h2]
      simp only [Option.some.injEq, exists_eq_left']
      exact (h3.2 x).symm
    · intro i j u v hiu hjv k
      cases hg : g.edgeAttrs u v k with
      | some a =>
        obtain ⟨a', e1, e2⟩ := hren.edges u v k a hg
        rw [happ i u hiu, happ j v hjv] at e1
        refine ⟨?_, ?_, ?_⟩
        · unfold HasEdge; rw [hea, e1, hg]; simp
        · intro x hx
          unfold edgeAttr; rw [hea, e1, hg]; exact (e2.1 x hx).symm
        · intro x
          unfold EdgeLayer; rw [hea, e1, hg]; simp only [Option.some.injEq, exists_eq_left']; exact (e2.2 x).symm
      | none =>
        have hno : h0.edgeAttrs (.int (first + i)) (.int (first + j)) k = none := by
          cases hc : h0.edgeAttrs (.int (first + i)) (.int (first + j)) k with
          | none => rfl
          | some b =>
            exfalso
            obtain ⟨u', v', h1, h2, h3⟩ := hren.noOtherEdges _ _ _ (Option.isSome_iff_exists.2 ⟨b, hc⟩)
            obtain ⟨b', hb'⟩ := Option.isSome_iff_exists.1 h1
            have hkd : ∃ kd, g.kd? u' v' = some kd := by
              unfold edgeAttrs at hb'
              cases h : g.kd? u' v' with
              | none => rw [h] at hb'; simp at hb'
              | some kd => exact ⟨kd, rfl⟩
            obtain ⟨kd, hkd⟩ := hkd
            obtain ⟨i', hi'⟩ := hidx u' (kd?_source wf hkd)
            obtain ⟨j', hj'⟩ := hidx v' (wf.target _ _ _ hkd)
            rw [happ i' u' hi'] at h2
            rw [happ j' v' hj'] at h3
            have h2' : i' = i := by simp at h2; omega
            have h3' : j' = j := by simp at h3; omega
            subst h2' h3'
            rw [hi'] at hiu
            rw [hj'] at hjv
            cases hiu; cases hjv
            rw [hg] at hb'; cases hb'
        refine ⟨?_, ?_, ?_⟩
        · unfold HasEdge; rw [hea, hno, hg]
        · intro x hx
          unfold edgeAttr; rw [hea, hno, hg]
        · intro x
          unfold EdgeLayer; rw [hea, hno, hg]
    · intro u v k he
      unfold HasEdge at he
      rw [hea] at he
      obtain ⟨u', v', h1, h2, h3⟩ := hren.noOtherEdges u v k he
      obtain ⟨b', hb'⟩ := Option.isSome_iff_exists.1 h1
      cases h : g.kd? u' v' with
      | none => unfold edgeAttrs at hb'; rw [h] at hb'; simp at hb'
      | some kd =>
        rw [hn, hn, ← h2, ← h3]
        exact ⟨hren.hasNode (kd?_source wf h), hren.hasNode (wf.target _ _ _ h)⟩
  obtain ⟨m1, m2, m3, m4, m5, _, _⟩ := hren.rest
  cases attr with
  | none =>
    refine ⟨_, rfl, base _ rfl rfl rfl rfl (fun _ _ _ => rfl) (fun _ _ _ _ h => by cases h), m3, m4, m5⟩
  | some a =>
    obtain ⟨h', e1, e2, e3, e4, e5, e6⟩ := setLabels_ok a (intMapping first l) (nodup_vals_intMapping first l)
      { h0 with name := "(" ++ g.name ++ ")_with_int_labels" } (by
        intro x hx
        obtain ⟨i, hi, rfl⟩ := (mem_vals_intMapping _ _ _).1 hx
        have hin : l[i]? = some l[i] := by simp [hi]
        rw [← happ i _ hin]
        exact hren.hasNode (hnode i _ hin))
    obtain ⟨n1, n2, n3, n4, n5, _, _⟩ := e4
    refine ⟨h', e1, base h' e2 e3 n1 n2 ?_ ?_, n3.trans m3, n4.trans m4, n5.trans m5⟩
    · intro n j hj
      rw [e6 n j (Or.inl (fun e => hj (by rw [e])))]
      rfl
    · intro i n b hin hb
      cases hb
      exact ⟨_, e5 (n, .int (first + i)) ((mem_intMapping _ _ _).2 ⟨i, hin, rfl⟩), labelValue n⟩

/-- the conversion succeeds for labels that are not in use; root, tokens and sentences of the result are those of the original graph -/
theorem convertLabels_fresh (g : DG) (hr : Reachable g) (hl : NodesLayeredNE g) (first : Int) (ordering : String) (attr : Option String) (l : List NodeId)
    (hlist : Listing g ordering l) (hattr : attr ≠ some "layers") (hnew : ∀ i : Nat, i < l.length → ¬ g.HasNode (.int (first + i)))
    (hself : ∀ n k, NewLabel l first n 0 → ¬ g.HasEdge n n k)
    (order : List NodeId) (ho : order.Perm l) :
    ∃ h, g.convertLabels first ordering attr (some order) = .ok h ∧ Numbered g l first attr h ∧
      h.root = g.root ∧ h.tokens = g.tokens ∧ h.sentences = g.sentences := by
  have hperm := hlist.perm
  have nd : l.Nodup := hperm.nodup_iff.2 hr.inv.wf.nodesNodup
  have hval : ∀ n ∈ vals (intMapping first l), ¬ g.HasNode n := by
    intro n hn
    obtain ⟨i, hi, rfl⟩ := (mem_vals_intMapping _ _ _).1 hn
    exact hnew i hi
  obtain ⟨h0, e1, e2⟩ := c22_relabel_nodes_partial g hr.inv hl (intMapping first l) (by rw [keys_intMapping]; exact nd) (nodup_vals_intMapping _ _)
    (by rw [keys_intMapping]; intro o ho; exact hperm.mem_iff.1 ho) hval
    (by
      intro o n hon
      obtain ⟨i, h1, h2⟩ := (mem_intMapping _ _ _).1 hon
      dsimp only at h1 h2
      subst h2
      by_cases h0 : first + (i : Int) = 0
      · exact Or.inr (fun k => hself o k ⟨i, h1, h0.symm⟩)
      · left; simp [NodeId.truthy, h0])
    (some order) (by
      unfold RelabelOrder
      rw [if_neg]
      · exact ⟨order, rfl, by rw [keys_intMapping]; exact ho⟩
      · rintro ⟨x, h1, h2⟩
        rw [keys_intMapping] at h1
        exact hval x h2 (hperm.mem_iff.1 h1))
  obtain ⟨h, f1, f2⟩ := intNumbered_of hr.inv hperm hattr e2
  refine ⟨h, ?_, f2⟩
  unfold convertLabels
  rw [(listing_iff hr.inv.wf _ _).2 hlist]
  simp only [bind, Except.bind, e1]
  exact f1

/-- **C71, partial** (labels not in use).  If none of the numbers `first, first + 1, …` is a node of the graph yet, convert_node_labels_to_integers succeeds, whatever
the order in which the nodes are renamed, and yields the graph with its nodes numbered in the order asked for: same attributes, layers, edges and keys, the old label of each node stored in
the attribute asked for.
Missing: the label 0 for a node with an edge to itself (`c71_fails_self_loop`), the attribute "layers" (`c71_fails_layers`), and labels in use, see `c71_relabel_partial`; the result's root and
token list are not numbered (`c71_fails_root`). -/
theorem c71_fresh_partial (g : DG) (hr : Reachable g) (hl : NodesLayeredNE g) (first : Int) (ordering : String) (attr : Option String) (l : List NodeId)
    (hlist : Listing g ordering l) (hattr : attr ≠ some "layers") (hnew : ∀ i : Nat, i < l.length → ¬ g.HasNode (.int (first + i)))
    (hself : ∀ n k, NewLabel l first n 0 → ¬ g.HasEdge n n k)
    (order : List NodeId) (ho : order.Perm l) :
    ∃ h, g.convertLabels first ordering attr (some order) = .ok h ∧ Numbered g l first attr h := by
  obtain ⟨h, h1, h2, _⟩ := convertLabels_fresh g hr hl first ordering attr l hlist hattr hnew hself order ho
  exact ⟨h, h1, h2⟩

/-- **C71 (every ordering)**: for each of the four documented orderings there is exactly one list of the nodes in that order ... -/
theorem c71_orderings (g : DG) (hr : Reachable g) (ordering : String) (ho : ordering ∈ ["default", "sorted", "increasing degree", "decreasing degree"]) :
    ∃ l, Listing g ordering l ∧ ∀ l', Listing g ordering l' → l' = l := by
  have key : ∃ l, g.nodeOrdering ordering = .ok l := by
    simp only [List.mem_cons, List.not_mem_nil, or_false] at ho
    rcases ho with rfl | rfl | rfl | rfl <;> exact ⟨_, rfl⟩
  obtain ⟨l, hl⟩ := key
  refine ⟨l, (listing_iff hr.inv.wf _ _).1 hl, ?_⟩
  intro l' h
  have := (listing_iff hr.inv.wf _ _).2 h
  rw [hl] at this
  cases this
  rfl

/-- ... and **C71 (unknown ordering)**: any other ordering raises NetworkXError. -/
theorem c71_unknown_ordering (g : DG) (first : Int) (ordering : String) (ho : ordering ∉ ["default", "sorted", "increasing degree", "decreasing degree"])
    (attr : Option String) (order : Option (List NodeId)) : g.convertLabels first ordering attr order = .error .networkx := by
  simp only [List.mem_cons, List.not_mem_nil, or_false, not_or] at ho
  obtain ⟨h1, h2, h3, h4⟩ := ho
  simp [convertLabels, nodeOrdering, h1, h2, h3, h4, bind, Except.bind]

/-- **C71, partial** (labels in use).  If no node already has the number it would get, convert_node_labels_to_integers numbers the nodes, or raises NetworkXUnfeasible if
there is no order in which the nodes could be renamed one after the other.  Since the code copies the graph and then renames in place, "Use copy=True", as the message suggests, is no way out. -/
theorem c71_relabel_partial (g : DG) (hr : Reachable g) (hl : NodesLayeredNE g) (first : Int) (ordering : String) (attr : Option String) (l : List NodeId)
    (hlist : Listing g ordering l) (hattr : attr ≠ some "layers") (hnew : ∀ x, ¬ NewLabel l first (.int x) x)
    (hself : ∀ n k, NewLabel l first n 0 → ¬ g.HasEdge n n k)
    (m : Dict NodeId NodeId) (hnd : m.Nodup) (hm : ∀ n x, (n, x) ∈ m ↔ ∃ i, x = .int i ∧ NewLabel l first n i)
    (order : Option (List NodeId)) (ho : RelabelOrder m order) :
    (∃ h, g.convertLabels first ordering attr order = .ok h ∧ Numbered g l first attr h) ∨
      (g.convertLabels first ordering attr order = .error .unfeasible ∧ ∀ o, ¬ ReverseTopological m o) := by
  have hperm := hlist.perm
  have nd : l.Nodup := hperm.nodup_iff.2 hr.inv.wf.nodesNodup
  have hmem : ∀ p, p ∈ m ↔ p ∈ intMapping first l := by
    rintro ⟨n, x⟩
    rw [hm, mem_intMapping]
    constructor
    · rintro ⟨i, rfl, j, h1, h2⟩; exact ⟨j, h1, by rw [h2]⟩
    · rintro ⟨i, h1, h2⟩; exact ⟨_, h2, i, h1, rfl⟩
  have hkeys : ∀ x, x ∈ keys m ↔ x ∈ keys (intMapping first l) := by intro x; simp only [keys, List.mem_map, hmem]
  have hvals : ∀ x, x ∈ vals m ↔ x ∈ vals (intMapping first l) := by intro x; simp only [vals, List.mem_map, hmem]
  have hrt : ∀ o, ReverseTopological m o ↔ ReverseTopological (intMapping first l) o := by
    intro o; unfold ReverseTopological; simp only [hkeys, hvals, hmem]
  have hmp : m.Perm (intMapping first l) := (List.perm_ext_iff_of_nodup hnd (List.Nodup.of_map _ (nodup_vals_intMapping first l))).2 hmem
  have ho' : RelabelOrder (intMapping first l) order := by
    have hkp : (keys m).Perm (keys (intMapping first l)) := hmp.map _
    unfold RelabelOrder at ho ⊢
    simp only [hkeys, hvals] at ho ⊢
    split at ho
    · rename_i h
      rw [if_pos h]
      cases order with
      | none => simpa only [hrt] using ho
      | some o => exact (hrt o).1 ho
    · rename_i h
      rw [if_neg h]
      obtain ⟨o, h1, h2⟩ := ho
      exact ⟨o, h1, h2.trans hkp⟩
  have hself' : ∀ o n, (o, n) ∈ intMapping first l → n.truthy = true ∨ ∀ k, ¬ g.HasEdge o o k := by
    intro o n hon
    obtain ⟨i, h1, h2⟩ := (mem_intMapping _ _ _).1 hon
    dsimp only at h1 h2
    subst h2
    by_cases h0 : first + (i : Int) = 0
    · exact Or.inr (fun k => hself o k ⟨i, h1, h0.symm⟩)
    · left; simp [NodeId.truthy, h0]
  have hid : ∀ o n, (o, n) ∈ intMapping first l → o ≠ n := by
    rintro o n hon rfl
    obtain ⟨i, h1, h2⟩ := (mem_intMapping _ _ _).1 hon
    dsimp only at h1 h2
    subst h2
    exact hnew _ ⟨i, h1, rfl⟩
  have hall : ∀ x, x ∈ keys (intMapping first l) ↔ g.HasNode x := by intro x; rw [keys_intMapping]; exact hperm.mem_iff
  rcases c22_relabel_nodes_overlapping_partial g hr.inv hl (intMapping first l) (by rw [keys_intMapping]; exact nd) (nodup_vals_intMapping _ _)
    (fun o h => (hall o).1 h)
    (fun n _ => by
      by_cases h : g.HasNode n
      · exact Or.inr ((hall n).2 h)
      · exact Or.inl h) hid hself' order ho' with ⟨h0, e1, e2⟩ | ⟨e1, e2⟩
  · obtain ⟨h, f1, f2, _⟩ := intNumbered_of hr.inv hperm hattr e2
    left
    refine ⟨h, ?_, f2⟩
    unfold convertLabels
    rw [(listing_iff hr.inv.wf _ _).2 hlist]
    simp only [bind, Except.bind, e1]
    exact f1
  · right
    refine ⟨?_, fun o h => e2 o ((hrt o).1 h)⟩
    unfold convertLabels
    rw [(listing_iff hr.inv.wf _ _).2 hlist]
    simp only [bind, Except.bind, e1]

/-- **C71 is violated**: the graph returned still has the old root and the old token list.  If these are strings, as for every reader of this package, the root of the
result is no node of the result, and none of its tokens is. -/
theorem c71_fails_root (g : DG) (hr : Reachable g) (hl : NodesLayeredNE g) (first : Int) (ordering : String) (attr : Option String) (l : List NodeId)
    (hlist : Listing g ordering l) (hattr : attr ≠ some "layers") (hnew : ∀ i : Nat, i < l.length → ¬ g.HasNode (.int (first + i)))
    (hself : ∀ n k, NewLabel l first n 0 → ¬ g.HasEdge n n k) (order : List NodeId) (ho : order.Perm l) (r : String) (hroot : g.root = .str r) :
    ∃ h, g.convertLabels first ordering attr (some order) = .ok h ∧ ¬ h.HasNode h.root ∧ h.tokens = g.tokens ∧ ∀ t, .str t ∈ h.tokens → ¬ h.HasNode (.str t) := by
  obtain ⟨h, h1, h2, h3, h4, _⟩ := convertLabels_fresh g hr hl first ordering attr l hlist hattr hnew hself order ho
  have hno : ∀ t, ¬ h.HasNode (.str t) := by
    intro t ht
    obtain ⟨i, _, e⟩ := (h2.nodes _).1 ht
    cases e
  refine ⟨h, h1, ?_, h4, fun t _ => hno t⟩
  rw [h3, hroot]
  exact hno r

/-- **C71 is violated**: a node that already has the number it would get loses its attributes, or the old label cannot be stored and KeyError is raised -/
theorem c71_fails_same_label :
    Listing twoNodes "default" [.str "a:root_node", .int 1, .int 2] ∧
    twoNodes.nodeAttr (.int 1) "label" = some (.atom (.str "x")) ∧
    RelabelOrder (intMapping 0 [.str "a:root_node", .int 1, .int 2]) (some [.int 2, .int 1, .int 0, .str "a:root_node"]) ∧
    (twoNodes.convertLabels 0 "default" none (some [.int 2, .int 1, .int 0, .str "a:root_node"])).toOption.map (fun h => h.nodeAttr (.int 1) "label") = some none ∧
    (((init "" "a" none).run [.addNode (.int 1) (.atom .none) .none []]).convertLabels 0 "default" (some "old") (some [.int 1, .int 0, .str "a:root_node"])).toOption.isNone = true := by
  refine ⟨?_, by decide, ?_, by decide, by decide⟩
  · have : keys twoNodes.nodes = [.str "a:root_node", .int 1, .int 2] := by decide
    rw [← this]; exact .default
  · unfold RelabelOrder
    rw [if_pos ⟨.int 1, by decide, by decide⟩]
    refine ⟨by decide, ?_, ?_⟩
    · intro x
      have : ∀ x, x ∈ keys (intMapping 0 [.str "a:root_node", .int 1, .int 2]) ↔ x = .str "a:root_node" ∨ x = .int 1 ∨ x = .int 2 := by intro x; simp [keys, intMapping]
      rw [this]
      have : ∀ x, x ∈ vals (intMapping 0 [.str "a:root_node", .int 1, .int 2]) ↔ x = .int 0 ∨ x = .int 1 ∨ x = .int 2 := by intro x; simp [vals, intMapping]
      rw [this]
      simp only [List.mem_cons, List.not_mem_nil, or_false]
      constructor
      · rintro (h | h | h | h) <;> simp [h]
      · rintro ((h | h | h) | (h | h | h)) <;> simp [h]
    · intro o n h hne
      simp [intMapping] at h
      rcases h with ⟨rfl, rfl⟩ | ⟨rfl, rfl⟩ | ⟨rfl, rfl⟩
      · exact ⟨[.int 2, .int 1, .int 0], [], rfl, by simp⟩
      · exact absurd rfl hne
      · exact absurd rfl hne

/-- a node with an edge to itself -/
def loopNode : DG := (init "" "a" none).run [.addNode (.str "z") (.atom .none) .none [], .addEdge (.str "z") (.str "z") (.atom .none) none .none []]

/-- **C71 is violated**: the label 0 for a node with an edge to itself leaves the old node in the graph and tears the edge apart -/
theorem c71_fails_self_loop :
    Listing loopNode "decreasing degree" [.str "z", .str "a:root_node"] ∧
    (loopNode.convertLabels 0 "decreasing degree" none (some [.str "z", .str "a:root_node"])).toOption.map (fun h => (decide (h.HasNode (.str "z")), decide (h.HasEdge (.int 0) (.int 0) (.int 0)))) =
      some (true, false) := by
  have hr : Reachable loopNode := ⟨"", "a", none, _, by decide, rfl⟩
  exact ⟨(listing_iff hr.inv.wf _ _).1 (by rfl), by decide⟩

/-- **C71 is violated**: with the label attribute "layers" the layers of all nodes are replaced by their old labels -/
theorem c71_fails_layers : ((twoNodes.convertLabels 10 "default" (some "layers") (some [.int 1, .int 2, .str "a:root_node"])).toOption.bind (fun h => h.nodeAttr (.int 11) "layers")) =
    some (.atom (.int 1)) := by decide

/-- the hypotheses of `c71_fresh_partial` are met: two nodes with edges in both directions and a self-loop, by decreasing degree -/
example : ∃ h, twoNodes.convertLabels 10 "decreasing degree" (some "old") (some [.int 1, .int 2, .str "a:root_node"]) = .ok h ∧
    Numbered twoNodes [.int 2, .int 1, .str "a:root_node"] 10 (some "old") h ∧ h.HasEdge (.int 10) (.int 11) (.str "k") := by
  obtain ⟨h, h1, h2⟩ := c71_fresh_partial twoNodes reachable_twoNodes layered_twoNodes 10 "decreasing degree" (some "old") [.int 2, .int 1, .str "a:root_node"]
    ((listing_iff reachable_twoNodes.inv.wf _ _).1 (by rfl)) (by decide)
    (by intro i hi; rcases i with _ | _ | _ | i <;> first | decide | (simp at hi; omega))
    (by rintro n k ⟨i, _, hi⟩; omega) [.int 1, .int 2, .str "a:root_node"] (List.Perm.swap _ _ _)
  exact ⟨h, h1, h2, ((h2.edges 0 1 (.int 2) (.int 1) rfl rfl (.str "k")).1).2 (by decide)⟩

/-- the hypotheses of `c71_relabel_partial` are met: the nodes 1 and 2 get the numbers 2 and 3, and there is an order to do so -/
example : RelabelOrder (intMapping 1 [.str "a:root_node", .int 1, .int 2]) (some [.int 3, .int 2, .int 1, .str "a:root_node"]) ∧
    ∃ h, twoNodes.convertLabels 1 "default" none (some [.int 3, .int 2, .int 1, .str "a:root_node"]) = .ok h ∧
    Numbered twoNodes [.str "a:root_node", .int 1, .int 2] 1 none h := by
  have hk : keys twoNodes.nodes = [.str "a:root_node", .int 1, .int 2] := by decide
  have ho : RelabelOrder (intMapping 1 [.str "a:root_node", .int 1, .int 2]) (some [.int 3, .int 2, .int 1, .str "a:root_node"]) := by
    unfold RelabelOrder
    rw [if_pos ⟨.int 1, by decide, by decide⟩]
    refine ⟨by decide, ?_, ?_⟩
    · intro x
      have : x ∈ keys (intMapping 1 [.str "a:root_node", .int 1, .int 2]) ↔ x = .str "a:root_node" ∨ x = .int 1 ∨ x = .int 2 := by simp [keys, intMapping]
      rw [this]
      have : x ∈ vals (intMapping 1 [.str "a:root_node", .int 1, .int 2]) ↔ x = .int 1 ∨ x = .int 2 ∨ x = .int 3 := by simp [vals, intMapping]
      rw [this]
      simp only [List.mem_cons, List.not_mem_nil, or_false]
      constructor
      · rintro (h | h | h | h) <;> simp [h]
      · rintro ((h | h | h) | (h | h | h)) <;> simp [h]
    · intro o n h hne
      simp [intMapping] at h
      rcases h with ⟨rfl, rfl⟩ | ⟨rfl, rfl⟩ | ⟨rfl, rfl⟩
      · exact ⟨[.int 3, .int 2, .int 1], [], rfl, by simp⟩
      · exact ⟨[.int 3, .int 2], [.str "a:root_node"], rfl, by simp⟩
      · exact ⟨[.int 3], [.int 1, .str "a:root_node"], rfl, by simp⟩
  refine ⟨ho, ?_⟩
  rcases c71_relabel_partial twoNodes reachable_twoNodes layered_twoNodes 1 "default" none [.str "a:root_node", .int 1, .int 2] (hk ▸ .default) (by decide)
    (by
      rintro x ⟨i, h1, h2⟩
      rcases i with _ | _ | _ | i <;> simp at h1 h2
      · omega
      · omega)
    (by
      rintro n k ⟨i, h1, h2⟩
      omega)
    (intMapping 1 [.str "a:root_node", .int 1, .int 2]) (by decide)
    (by
      intro n x
      rw [mem_intMapping]
      constructor
      · rintro ⟨i, h1, h2⟩; exact ⟨_, h2, i, h1, rfl⟩
      · rintro ⟨i, rfl, j, h1, h2⟩; exact ⟨j, h1, by rw [h2]⟩) _ ho with h | h
  · exact h
  · exfalso
    have := h.1
    revert this
    have hd : (twoNodes.convertLabels 1 "default" none (some [.int 3, .int 2, .int 1, .str "a:root_node"])).toOption.isSome = true := by decide
    intro he
    rw [he] at hd
    simp [Except.toOption] at hd

end DG
end Dg
