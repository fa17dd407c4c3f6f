import Verif.Lemmas.Keeps

/-! C03: add_node merges attributes -- last write wins, layers are united, everything else is untouched.
C05: a node's layers are the union of everything ever assigned, in any order. -/

namespace Dg
open Dict
namespace DG

/-- `add_node` succeeds for every acceptable `layers` argument and dict `attr_dict`, provided the layers of an
already existing node are a set (which C01 guarantees for graphs built without the one bad call pattern). -/
theorem c03_add_node_succeeds (g : DG) (n : NodeId) (layers : Val) (ls : List Atom) (ad : AttrArg) (attr : Attrs)
    (hl : LayersArg g.ns layers ls) (had : ad ≠ .bad)
    (hold : ∀ a, g.nodeAttrs n = some a → Layered a) :
    ∃ g', g.step (.addNode n layers ad attr) = (g', none) := by
  have hc := (checkLayers_iff g layers ls).2 hl
  have hA : ∃ A, mergeAttrArg ad attr ls .assertion = .ok A := by
    unfold mergeAttrArg; cases ad <;> simp at had ⊢
  obtain ⟨A, hA⟩ := hA
  simp only [step, addNode, bind, Except.bind, hc, hA]
  cases hf : find g.nodes n with
  | none => exact ⟨_, rfl⟩
  | some old =>
    obtain ⟨xs, hx, _⟩ := hold old hf
    simp only [layerSet, hx]
    exact ⟨_, rfl⟩

/-- **C03**.  If `add_node(n, layers, attr_dict, **attr)` succeeds, then the `layers` argument was acceptable and
`n` is a node; every other attribute is the keyword value, else the attr_dict value, else the old
value; the layers are the union of the old and the new ones; all other nodes, all edges, the
node order and all other data are unchanged. -/
theorem c03_add_node (g g' : DG) (hr : Reachable g) (n : NodeId) (layers : Val) (ad : AttrArg) (attr : Attrs)
    (nda : (keys attr).Nodup) (vad : AttrArg.Valid ad)
    (h : g.step (.addNode n layers ad attr) = (g', none)) :
    ∃ ls, LayersArg g.ns layers ls ∧ g'.HasNode n ∧
      (∀ k, k ≠ "layers" → g'.nodeAttr n k = (find attr k).or ((argFind ad k).or (g.nodeAttr n k))) ∧
      (∀ l, g'.NodeLayer n l ↔ g.NodeLayer n l ∨ l ∈ ls) ∧
      (∀ m, m ≠ n → g'.nodeAttrs m = g.nodeAttrs m) ∧
      (∀ u v k, g'.edgeAttrs u v k = g.edgeAttrs u v k) ∧
      keys g'.nodes = (if n ∈ keys g.nodes then keys g.nodes else keys g.nodes ++ [n]) ∧
      SameMeta g g' := by
  have hi := hr.inv
  simp only [step] at h
  cases ha : g.addNode n layers ad attr with
  | error e => rw [ha] at h; simp [lift] at h
  | ok g1 =>
    rw [ha] at h; simp only [lift, Prod.mk.injEq] at h
    obtain ⟨rfl, _⟩ := h
    have hkd := edgeAttrs_of_kd? (kd?_addNode hi.wf ha)
    obtain ⟨ls, A, hls, hA, hcase⟩ := addNode_ok ha
    refine ⟨ls, (checkLayers_iff g layers ls).1 hls, ?_⟩
    have hAl := mergeAttrArg_layers hA nda
    have hAf := fun k hk => mergeAttrArg_find hA nda (k := k) hk
    rcases hcase with ⟨hnew, rfl⟩ | ⟨old, ex, hold, hex, rfl⟩
    · have hn : g.nodeAttrs n = none := hnew
      refine ⟨?_, ?_, ?_, ?_, hkd, ?_, sameMeta_newNode _ _ _⟩
      · rw [hasNode_iff, nodeAttrs_newNode]; simp
      · intro k hk
        unfold nodeAttr
        rw [nodeAttrs_newNode, hn]
        simp [hAf k hk]
      · intro l
        unfold NodeLayer AttrsLayer
        rw [nodeAttrs_newNode, hn]
        simp [hAl]
      · intro m hm; rw [nodeAttrs_newNode, if_neg hm]
      · exact keys_put _ _ _
    · have hn : g.nodeAttrs n = some old := hold
      refine ⟨?_, ?_, ?_, ?_, hkd, ?_, ⟨rfl, rfl, rfl, rfl, rfl, rfl, rfl⟩⟩
      · rw [hasNode_iff, nodeAttrs_putNodes]; simp
      · intro k hk
        unfold nodeAttr
        rw [nodeAttrs_putNodes, hn]
        simp only [if_true, Option.bind_some]
        rw [find_put_ne _ _ (Ne.symm hk), find_upd _ (nodup_del (mergeAttrArg_nodup hA nda vad) _), find_del,
          if_neg (Ne.symm hk), hAf k hk]
        exact Option.or_assoc
      · intro l
        unfold NodeLayer AttrsLayer
        rw [nodeAttrs_putNodes, hn]
        simp [hex]
      · intro m hm; rw [nodeAttrs_putNodes, if_neg hm]
      · exact keys_put _ _ _

/-- **C03 (failure)**.  A call that raises leaves the graph exactly as it was, and an unacceptable `layers`
argument always raises an AssertionError. -/
theorem c03_add_node_failure (g g' : DG) (n : NodeId) (layers : Val) (ad : AttrArg) (attr : Attrs) (e : PyErr)
    (h : g.step (.addNode n layers ad attr) = (g', some e)) : g' = g := by
  simp only [step] at h
  cases ha : g.addNode n layers ad attr with
  | error e => rw [ha] at h; simp only [lift, Prod.mk.injEq] at h; exact h.1.symm
  | ok g1 => rw [ha] at h; simp [lift] at h

@[inherit_doc c03_add_node_failure]
theorem c03_bad_layers_raise (g : DG) (n : NodeId) (layers : Val) (ad : AttrArg) (attr : Attrs)
    (h : ∀ ls, ¬ LayersArg g.ns layers ls) :
    g.step (.addNode n layers ad attr) = (g, some .assertion) := by
  have : g.checkLayers layers = .error .assertion := by
    cases hc : g.checkLayers layers with
    | ok ls => exact absurd ((checkLayers_iff g layers ls).1 hc) (h ls)
    | error e =>
      unfold checkLayers at hc
      split at hc
      · unfold strSet at hc
        split at hc
        · split at hc <;> simp_all
        · simp_all
      · simp at hc
  simp [step, addNode, bind, Except.bind, this, lift]

/-- One `add_node` call of a client. -/
structure AddNodeCall where
  n : NodeId
  layers : Val
  ad : AttrArg
  attr : Attrs

/-- the call as an operation -/
def AddNodeCall.op (c : AddNodeCall) : Op := .addNode c.n c.layers c.ad c.attr

/-- **C05**.  After any sequence of `add_node` calls (some of which may raise), a node's layers are exactly its
old layers plus the layers of all acceptable calls made for this node. -/
theorem c05_layers_are_union (g : DG) (hr : Reachable g) (hn : ∀ n a, g.nodeAttrs n = some a → Layered a)
    (calls : List AddNodeCall) (hv : ∀ c ∈ calls, c.op.Valid) (m : NodeId) (l : Atom) :
    (g.run (calls.map AddNodeCall.op)).NodeLayer m l ↔
      g.NodeLayer m l ∨ ∃ c ∈ calls, c.n = m ∧ c.ad ≠ .bad ∧ ∃ ls, LayersArg g.ns c.layers ls ∧ l ∈ ls := by
  have hi := hr.inv
  obtain ⟨nm, ns, rt, ops0, hv0, hg0⟩ := hr
  induction calls generalizing g ops0 with
  | nil => simp [run]
  | cons c calls ih =>
    simp only [List.map_cons, run, List.foldl_cons]
    have hvc := hv c (by simp)
    have hns : (g.step c.op).1.ns = g.ns := by
      cases hs : g.step c.op with
      | mk g' e =>
        cases e with
        | none =>
          obtain ⟨_, _, _, _, _, _, _, _, hm⟩ := c03_add_node g g' ⟨nm, ns, rt, ops0, hv0, hg0⟩ _ _ _ _ hvc.2 hvc.1 hs
          exact hm.2.1
        | some e => rw [c03_add_node_failure g g' _ _ _ _ e hs]
    have hlay : ∀ n a, (g.step c.op).1.nodeAttrs n = some a → Layered a := by
      intro n a ha
      refine (layeredB_false a).1 (nodesLayered_step (ne := False) hi (fun n a h => (layeredB_false a).2 (hn n a h)) hvc ?_
        (fun h => h.elim) n a ha)
      exact trivial
    have ih' := ih (g.step c.op).1 hlay (fun c hc => hv c (List.mem_cons_of_mem _ hc)) (inv_step hi hvc)
      (ops0 ++ [c.op]) (by
        intro op hop
        rcases List.mem_append.1 hop with h | h
        · exact hv0 op h
        · simp at h; subst h; exact hvc) (by rw [hg0]; simp [run])
    refine Iff.trans ih' ?_
    rw [hns]
    have key : (g.step c.op).1.NodeLayer m l ↔ g.NodeLayer m l ∨
        (c.n = m ∧ c.ad ≠ .bad ∧ ∃ ls, LayersArg g.ns c.layers ls ∧ l ∈ ls) := by
      by_cases hok : c.ad ≠ .bad ∧ ∃ ls, LayersArg g.ns c.layers ls
      · obtain ⟨had, ls, hls⟩ := hok
        obtain ⟨g', hg'⟩ := c03_add_node_succeeds g c.n c.layers ls c.ad c.attr hls had (hn c.n)
        obtain ⟨ls', hls', _, _, hl, hoth, _⟩ := c03_add_node g g' ⟨nm, ns, rt, ops0, hv0, hg0⟩ _ _ _ _ hvc.2 hvc.1 hg'
        have heq : (g.step c.op).1 = g' := by
          have : g.step c.op = (g', none) := hg'
          rw [this]
        rw [heq]
        have hlsu : ∀ ls1 ls2, LayersArg g.ns c.layers ls1 → LayersArg g.ns c.layers ls2 → ls1 = ls2 := by
          intro ls1 ls2 h1 h2
          have h1 := (checkLayers_iff g _ _).2 h1
          have h2 := (checkLayers_iff g _ _).2 h2
          rw [h1] at h2; injection h2
        by_cases hm : c.n = m
        · subst hm
          rw [hl l]
          constructor
          · rintro (h | h)
            · exact Or.inl h
            · exact Or.inr ⟨rfl, had, ls', hls', h⟩
          · rintro (h | ⟨_, _, ls2, h2, h3⟩)
            · exact Or.inl h
            · rw [hlsu _ _ hls' h2]; exact Or.inr h3
        · unfold NodeLayer
          rw [hoth m (Ne.symm hm)]
          simp [hm]
      · have hg : (g.step c.op).1 = g := by
          cases hs : g.step c.op with
          | mk g' e =>
            cases e with
            | some e => rw [c03_add_node_failure g g' _ _ _ _ e hs]
            | none =>
              exfalso
              simp only [step, AddNodeCall.op] at hs
              cases ha : g.addNode c.n c.layers c.ad c.attr with
              | error e => rw [ha] at hs; simp [lift] at hs
              | ok g1 =>
                obtain ⟨ls, A, hls, hA, _⟩ := addNode_ok ha
                apply hok
                refine ⟨?_, ls, (checkLayers_iff g _ _).1 hls⟩
                intro hb; rw [hb] at hA; simp [mergeAttrArg] at hA
        rw [hg]
        constructor
        · exact Or.inl
        · rintro (h | ⟨_, h1, ls, h2, _⟩)
          · exact h
          · exact absurd ⟨h1, ls, h2⟩ hok
    rw [key]
    simp only [List.mem_cons, exists_eq_or_imp, or_assoc]

/-- **C05 (order independence)**: permuting (and repeating) the calls does not change any node's layers. -/
theorem c05_order_independent (g : DG) (hr : Reachable g) (hn : ∀ n a, g.nodeAttrs n = some a → Layered a)
    (calls calls' : List AddNodeCall) (hv : ∀ c ∈ calls, c.op.Valid) (hsame : ∀ c, c ∈ calls ↔ c ∈ calls')
    (m : NodeId) (l : Atom) :
    (g.run (calls.map AddNodeCall.op)).NodeLayer m l ↔ (g.run (calls'.map AddNodeCall.op)).NodeLayer m l := by
  rw [c05_layers_are_union g hr hn calls hv, c05_layers_are_union g hr hn calls' (fun c hc => hv c ((hsame c).2 hc))]
  simp only [hsame]

/-- non-vacuity: three calls, one of which raises -/
example :
    let g := init "" "dg" none
    let calls : List AddNodeCall := [
      ⟨.int 1, .set [.str "a"], .none, [("x", .atom (.int 1))]⟩, ⟨.int 1, .list [.str "zz"], .none, []⟩,
      ⟨.int 1, .atom .none, .dict [("x", .atom (.int 2))], []⟩]
    Reachable g ∧ (∀ c ∈ calls, c.op.Valid) ∧
    (g.run (calls.map AddNodeCall.op)).nodeAttrs (.int 1) =
      some [("x", .atom (.int 2)), ("layers", .set [.str "a", .str "dg"])] := by
  refine ⟨⟨"", "dg", none, [], by simp, rfl⟩, ?_, by decide⟩
  simp [AddNodeCall.op, Op.Valid, AttrArg.Valid, keys]

end DG
end Dg
