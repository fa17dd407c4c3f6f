import Verif.Lemmas.MergeKeeps
import Verif.Props.C21
import Verif.Props.C22
import Verif.Lemmas.GetOffsets

/-! C23: merge_graphs keeps everything of the receiving graph. -/

namespace Dg
open Dict
namespace DG

theorem keeps_removeNode {g g2 g' : DG} (wf : WF g) (hi2 : Inv g2) {n : NodeId} (hn : ¬ g.HasNode n) (h : g2.removeNode n = .ok g')
    (k : Keeps g g2) (kl : KeepsNodeLayers g g2) : Keeps g g' ∧ KeepsNodeLayers g g' := by
  obtain ⟨_, _, h1, h2⟩ := removeNode_ok hi2 h
  have he : ∀ u v k, g.HasEdge u v k → g'.edgeAttrs u v k = g2.edgeAttrs u v k := by
    intro u v k hE
    obtain ⟨a, ha⟩ := Option.isSome_iff_exists.1 hE
    obtain ⟨p, q⟩ := edge_ends wf ha
    unfold edgeAttrs
    rw [h2, if_neg]
    rintro (rfl | rfl)
    · exact hn p
    · exact hn q
  have hnn : ∀ m, g.HasNode m → g'.nodeAttrs m = g2.nodeAttrs m := by
    intro m hm
    rw [h1, if_neg]
    rintro rfl; exact hn hm
  refine ⟨⟨?_, ?_, ?_⟩, ?_⟩
  · intro m hm
    obtain ⟨a, ha⟩ := hasNode_iff'.1 (k.nodes m hm)
    exact hasNode_iff'.2 ⟨a, by rw [hnn m hm]; exact ha⟩
  · intro u v kk hE
    have := k.edges u v kk hE
    unfold HasEdge at this ⊢
    rw [he u v kk hE]; exact this
  · intro u v kk l hl
    obtain ⟨a, ha, hal⟩ := k.edgeLayers u v kk l hl
    obtain ⟨b, hb, _⟩ := hl
    refine ⟨a, ?_, hal⟩
    rw [he u v kk (by unfold HasEdge; rw [hb]; rfl)]; exact ha
  · intro m l hl
    obtain ⟨a, ha, hal⟩ := kl m l hl
    obtain ⟨b, hb, _⟩ := hl
    exact ⟨a, by rw [hnn m (hasNode_iff'.2 ⟨b, hb⟩)]; exact ha, hal⟩

/-- **C23, partial** (nodes, edges, layers, tokens, sentences).  Whatever other graph is merged into `g`, whatever order Python processes the labels in, and whether or not
merge_graphs succeeds: every node, every edge, every layer of a node or an edge of `g` is still there, and the lists of tokens and sentences are unchanged unless they were empty.
Missing: graphs having a node with the ID of the other graph's root, in particular graphs with the same root ID: that node is deleted, see
`c23_fails_for_equal_root_ids`. -/
theorem c23_merge_keeps_graph_partial (g other : DG) (hr : Inv g) (ho : Inv other) (s : Sched) (hroot : ¬ g.HasNode other.root) :
    let g' := (g.mergeGraphs other s).1
    Keeps g g' ∧ KeepsNodeLayers g g' ∧ (g.tokens ≠ [] → g'.tokens = g.tokens) ∧ (g.sentences ≠ [] → g'.sentences = g.sentences) := by
  obtain ⟨g2, r, h⟩ := mergeGraphs_trace (g := g) ho.inv s
  have hk := r.keeps hr.inv
  have hl := keepsLists_mergeGraphs (g := g) ho.inv s
  simp only
  rcases h with h | h
  · rw [← h] at hk; exact ⟨hk.1, hk.2, hl⟩
  · have := keeps_removeNode hr.inv.wf (r.inv hr.inv) hroot h hk.1 hk.2
    exact ⟨this.1, this.2, hl⟩

/-- merging leads from reachable graphs to a reachable graph: all invariants of C01-C12 hold for merged graphs, too -/
theorem c23_merge_result_is_reachable (g other : DG) (hr : Reachable g) (ho : Reachable other) (s : Sched) : Reachable (g.mergeGraphs other s).1 := by
  obtain ⟨g2, r, h⟩ := mergeGraphs_trace (g := g) ho.inv s
  have h2 := r.reachable hr
  rcases h with h | h
  · rw [h]; exact h2
  · exact (Ran.lift (P := fun _ => True) (.removeNode other.root) trivial trivial rfl h).reachable h2

/-- merging keeps graphs well-formed, however they were made -/
theorem merge_inv (g other : DG) (hr : Inv g) (ho : Inv other) (s : Sched) : Inv (g.mergeGraphs other s).1 := by
  obtain ⟨g2, r, h⟩ := mergeGraphs_trace (g := g) ho s
  have h2 := r.inv hr
  rcases h with h | h
  · rw [h]; exact h2
  · exact (Ran.lift (P := fun _ => True) (.removeNode other.root) trivial trivial rfl h).inv h2

/-- text preservation from a condition on the renamed graph -/
theorem merge_keeps_tokens (g other : DG) (hr : Inv g) (ho : Inv other) (s : Sched) (hroot : ¬ g.HasNode other.root)
    (strs : List String) (ht : g.HasTokens strs)
    (hc : ∀ m o', createTokenMapping other (g.noteRoot other) = .ok m → other.renameTokens m s = (o', none) →
      ∀ t v v', t ∈ g.tokens → g.nodeAttr t (qual g.ns "token") = some v → o'.nodeAttr t (qual g.ns "token") = some v' → v' = v) :
    List.Forall₂ (g.mergeGraphs other s).1.TokenStr g.tokens strs := by
  have hroot' : ∀ t ∈ g.tokens, t ≠ other.root := by
    rintro t hm rfl
    apply hroot
    obtain ⟨i, hi⟩ := List.mem_iff_getElem?.1 hm
    obtain ⟨s, _, hs⟩ := hasTokens_get ht hi
    obtain ⟨a, ha⟩ := nodeAttr_hasNode hs
    exact hasNode_iff'.2 ⟨a, ha⟩
  have hns : (g.mergeGraphs other s).1.ns = g.ns := by
    obtain ⟨g2, r, h⟩ := mergeGraphs_trace (g := g) ho.inv s
    rcases h with h | h
    · rw [h]; exact r.root.2
    · rw [(sameMeta_removeNode h).2.1]; exact r.root.2
  have key : KeepsAttr (· ∈ g.tokens) (qual g.ns "token") g (g.mergeGraphs other s).1 := by
    unfold mergeGraphs
    simp only
    split
    · exact fun _ _ _ h => h
    · rename_i m hm
      have r2 := ran_renameTokens ho.inv m s
      split
      · exact fun _ _ _ h => h
      · rename_i o' h2
        rw [h2] at r2
        have hi1 : Inv ((g.noteRoot other).updRenamed m) := ((ran_noteRoot g other).trans (ran_updRenamed _ m)).inv hr.inv
        exact keepsAttr_mergeRenamed hi1 (r2.inv ho.inv) (qual_ne_plain (by decide)) (qual_ne_plain (by decide))
          (by rw [r2.root.1]; intro h; exact hroot' _ h rfl)
          (fun t v v' h1 h2' h3 => hc m o' hm h2 t v v' h1 h2' h3)
  have : ∀ {ts ss}, List.Forall₂ g.TokenStr ts ss → (∀ t ∈ ts, t ∈ g.tokens) → List.Forall₂ (g.mergeGraphs other s).1.TokenStr ts ss := by
    intro ts ss h
    induction h with
    | nil => intro _; exact .nil
    | cons h1 _ ih =>
      intro hm
      refine .cons ?_ (ih (fun t ht => hm t (List.mem_cons_of_mem _ ht)))
      unfold TokenStr at h1 ⊢
      rw [hns]
      exact key _ _ (hm _ (by simp)) h1
  exact this ht (fun _ h => h)

/-- **C23 (text), partial**, other namespace: if no node of the other graph carries the attribute `<own namespace>:token`, the tokens of `g` keep their strings, hence `g` keeps
its text.  All outcomes, all processing orders. -/
theorem c23_merge_keeps_text_partial (g other : DG) (hr : Inv g) (ho : Inv other) (s : Sched) (hroot : ¬ g.HasNode other.root)
    (strs : List String) (ht : g.HasTokens strs) (hne : g.tokens ≠ []) (hno : ∀ n, other.nodeAttr n (g.ns ++ (":" ++ "token")) = none) :
    (g.mergeGraphs other s).1.HasTokens strs := by
  have h := merge_keeps_tokens g other hr ho s hroot strs ht (by
    intro m o' _ h2 t v v' _ _ h3
    have := noAttr_renameTokens (x := qual g.ns "token") (qual_ne_plain (by decide)) ho.inv hno m s
    rw [h2] at this
    rw [this t] at h3
    simp at h3)
  have ht' := (keepsLists_mergeGraphs (g := g) ho.inv s).1 hne
  unfold HasTokens; rw [ht']; exact h

theorem createTokenMapping_noteRoot (old new other : DG) : createTokenMapping old (new.noteRoot other) = createTokenMapping old new := by
  have : ∀ ns os m, tokenMappingLoop old (new.noteRoot other) ns os m = tokenMappingLoop old new ns os m := by
    intro ns
    induction ns with
    | nil => intros; rfl
    | cons n ns ih =>
      intro os m
      cases os with
      | nil => rfl
      | cons o os => simp only [tokenMappingLoop, ih]; rfl
  exact this _ _ _

/-- the facts about the token mapping that merging relies on -/
theorem mapping_facts {g other : DG} {strs : List String} (hg : g.HasTokens strs) (hot : other.HasTokens strs) (ndg : g.tokens.Nodup) (ndo : other.tokens.Nodup) :
    ∃ m, createTokenMapping other g = .ok m ∧ keys m = other.tokens ∧ vals m = g.tokens ∧
      ∀ o n, find m o = some n → ∃ (i : Nat) (s : String), other.tokens[i]? = some o ∧ g.tokens[i]? = some n ∧ strs[i]? = some s := by
  obtain ⟨m, h1, h2, h3⟩ := c21_maps_position_by_position other g strs hot hg ndo
  have hl : other.tokens.length = g.tokens.length := by rw [hot.length_eq, hg.length_eq]
  have hm : m = other.tokens.zip g.tokens := by
    apply List.ext_getElem?
    intro i
    have hlen : m.length = other.tokens.length := by rw [← h2]; simp [keys]
    by_cases hi : i < m.length
    · have hi1 : i < other.tokens.length := by omega
      have hi2 : i < g.tokens.length := by omega
      have hk : m[i].1 = other.tokens[i] := by
        have : (keys m)[i]? = other.tokens[i]? := by rw [h2]
        rw [List.getElem?_eq_getElem hi1, List.getElem?_eq_getElem (by simp [keys]; exact hi)] at this
        simpa [keys] using this
      have hv := h3 i other.tokens[i] g.tokens[i] (List.getElem?_eq_getElem hi1) (List.getElem?_eq_getElem hi2)
      have hv' : find m m[i].1 = some m[i].2 := mem_find (by rw [h2]; exact ndo) (List.getElem_mem hi)
      rw [hk, hv] at hv'
      injection hv' with hv'
      rw [List.getElem?_eq_getElem hi, List.getElem?_eq_getElem (by simp; omega)]
      rw [List.getElem_zip, hv', ← hk]
    · rw [List.getElem?_eq_none (by omega), List.getElem?_eq_none (by simp; omega)]
  refine ⟨m, h1, h2, ?_, ?_⟩
  · rw [hm]; unfold vals; exact List.map_snd_zip (by omega)
  · intro o n h
    have hmem := find_some_mem h
    rw [hm] at hmem
    obtain ⟨i, hi⟩ := List.mem_iff_getElem?.1 hmem
    rw [List.getElem?_zip_eq_some] at hi
    have hi1 : i < other.tokens.length := (List.getElem?_eq_some_iff.1 hi.1).1
    have : i < strs.length := by rw [← hot.length_eq]; exact hi1
    exact ⟨i, strs[i], hi.1, hi.2, List.getElem?_eq_getElem this⟩

/-- renaming the tokens of the other graph to unused IDs -/
theorem renameTokens_fresh {g other : DG} {strs : List String} (ho : Inv other) (hlo : NodesLayeredNE other) (hg : g.HasTokens strs) (hot : other.HasTokens strs)
    (ndg : g.tokens.Nodup) (ndo : other.tokens.Nodup) (hfresh : ∀ t ∈ g.tokens, ¬ other.HasNode t)
    (hself : (∀ t ∈ g.tokens, t.truthy = true) ∨ ∀ u k, ¬ other.HasEdge u u k) {m : Dict NodeId NodeId} (hm : createTokenMapping other g = .ok m)
    (s : Sched) (hs : s.Valid m) :
    ∃ o', other.renameTokens m s = (o', none) ∧ ∃ o'', Renamed (applyMap m) other o'' ∧ o'' = { o' with tokens := other.tokens } ∧
      (∀ t, t ∈ o'.tokens ↔ t ∈ g.tokens) := by
  obtain ⟨m', h1, h2, h3, h4⟩ := mapping_facts hg hot ndg ndo
  rw [hm] at h1; injection h1 with h1; subst h1
  have hmem : ∀ t ∈ other.tokens, other.HasNode t := by
    intro t hm
    obtain ⟨i, hi⟩ := List.mem_iff_getElem?.1 hm
    obtain ⟨s, _, hs⟩ := hasTokens_get hot hi
    obtain ⟨a, ha⟩ := nodeAttr_hasNode hs
    exact hasNode_iff'.2 ⟨a, ha⟩
  obtain ⟨o2, e1, e2⟩ := c22_relabel_nodes_partial other ho hlo m (by rw [h2]; exact ndo) (by rw [h3]; exact ndg) (by rw [h2]; exact hmem) (by rw [h3]; exact hfresh)
    (by
      intro o n hon
      rcases hself with h | h
      · left; apply h; rw [← h3]; exact List.mem_map_of_mem (f := Prod.snd) hon
      · right; exact fun k => h o k) s.order hs.1
  have htok : o2.tokens = other.tokens := e2.rest.2.2.2.1
  have hlen : other.tokens.length = g.tokens.length := by rw [hot.length_eq, hg.length_eq]
  unfold renameTokens
  rw [e1]
  simp only
  by_cases hme : m.isEmpty
  · refine ⟨o2, by rw [if_pos hme], o2, e2, ?_, ?_⟩
    · rw [← htok]
    · have hm0 : m = [] := by simpa using hme
      have ht0 : other.tokens = [] := by rw [← h2, hm0]; rfl
      have hg0 : g.tokens = [] := by rw [← h3, hm0]; rfl
      intro t; rw [htok, ht0, hg0]
  · refine ⟨{ o2 with tokens := s.vals }, by rw [if_neg hme], o2, e2, ?_, ?_⟩
    · rw [← htok]
    · intro t
      show t ∈ s.vals ↔ _
      rw [hs.2.mem_iff, h3]

theorem nodeAttr_renamed {f : NodeId → NodeId} {g g' : DG} (h : Renamed f g g') {n : NodeId} (hn : g.HasNode n) {x : String} (hx : x ≠ "layers") :
    g'.nodeAttr (f n) x = g.nodeAttr n x := by
  obtain ⟨a, ha⟩ := hasNode_iff'.1 hn
  obtain ⟨a', ha', hs⟩ := h.nodes n a ha
  unfold nodeAttr; rw [ha, ha']
  exact (hs.1 x hx).symm

/-- **C23 (text), partial**, same namespace: two graphs with the same namespace and the same tokenization whose token IDs are different. -/
theorem c23_merge_keeps_text_same_namespace_partial (g other : DG) (hr : Inv g) (ho : Inv other) (hlo : NodesLayeredNE other) (hroot : ¬ g.HasNode other.root)
    (hns : other.ns = g.ns) (strs : List String) (ht : g.HasTokens strs) (hot : other.HasTokens strs) (hne : g.tokens ≠ [])
    (ndg : g.tokens.Nodup) (ndo : other.tokens.Nodup) (hfresh : ∀ t ∈ g.tokens, ¬ other.HasNode t)
    (hself : (∀ t ∈ g.tokens, t.truthy = true) ∨ ∀ u k, ¬ other.HasEdge u u k)
    (s : Sched) (hs : ∀ m, createTokenMapping other g = .ok m → s.Valid m) :
    (g.mergeGraphs other s).1.HasTokens strs := by
  have h := merge_keeps_tokens g other hr ho s hroot strs ht (by
    intro m o' hm h2 t v v' htg hv hv'
    rw [createTokenMapping_noteRoot] at hm
    obtain ⟨o1, e1, o2, e2, rfl, e3⟩ := renameTokens_fresh ho hlo ht hot ndg ndo hfresh hself hm s (hs m hm)
    rw [h2] at e1
    simp only [Prod.mk.injEq, and_true] at e1
    subst e1
    obtain ⟨m', f1, f2, f3, f4⟩ := mapping_facts ht hot ndg ndo
    rw [hm] at f1; injection f1 with f1; subst f1
    have hv2 : ({ o' with tokens := other.tokens } : DG).nodeAttr t (qual g.ns "token") = some v' := hv'
    obtain ⟨a, ha⟩ := nodeAttr_hasNode hv2
    obtain ⟨n, hn, hfn⟩ := e2.noOtherNodes t (hasNode_iff'.2 ⟨a, ha⟩)
    rw [← hfn, nodeAttr_renamed e2 hn (qual_ne_plain (by decide))] at hv2
    have hfm : find m n = some t := by
      unfold applyMap at hfn
      cases hf : find m n with
      | some x => rw [hf] at hfn; simpa using hfn
      | none =>
        rw [hf] at hfn
        simp at hfn; subst hfn
        exact (hfresh _ htg hn).elim
    obtain ⟨i, str, g1, g2, g3⟩ := f4 n t hfm
    obtain ⟨s1, p1, q1⟩ := hasTokens_get ht g2
    obtain ⟨s2, p2, q2⟩ := hasTokens_get hot g1
    unfold TokenStr at q1 q2
    rw [hns] at q2
    rw [show qual g.ns "token" = g.ns ++ (":" ++ "token") from rfl] at hv hv2
    rw [q1] at hv; rw [q2] at hv2
    rw [p1] at p2; injection p2 with p2; subst p2
    injection hv with hv; injection hv2 with hv2
    rw [← hv, ← hv2])
  have ht' := (keepsLists_mergeGraphs (g := g) ho.inv s).1 hne
  unfold HasTokens; rw [ht']; exact h

/-- a document in namespace `ns` with root `r`, two tokens and a span -/
def mergeDoc (ns r t1 t2 sp : String) : DG := (init "" ns (some (.str r))).run [
  .addNode (.str t1) (.atom .none) .none [(ns ++ ":token", .atom (.str "x"))],
  .addNode (.str t2) (.atom .none) .none [(ns ++ ":token", .atom (.str "y"))],
  .addNode (.str sp) (.set [.str ns, .str (ns ++ ":span")]) .none [(ns ++ ":cat", .atom (.str sp))],
  .addEdge (.str sp) (.str t1) (.set [.str (ns ++ ":e")]) none .none [("edge_type", .atom (.str "spans"))],
  .addEdge (.str r) (.str sp) (.set [.str (ns ++ ":rootedge")]) none .none [("edge_type", .atom (.str "dominates"))],
  .setTokens [.str t1, .str t2]]

def mergeSched : Sched := ⟨some [.str "b1", .str "b2"], [.str "a2", .str "a1"]⟩

/-- the hypotheses are met, and the merge succeeds -/
example : let g := mergeDoc "a" "ra" "a1" "a2" "as"
    let o := mergeDoc "b" "rb" "b1" "b2" "bs"
    ¬ g.HasNode o.root ∧ g.tokens ≠ [] ∧ (g.mergeGraphs o mergeSched).2 = none ∧ (g.mergeGraphs o mergeSched).1.tokens = [.str "a1", .str "a2"] ∧
    g.nodeAttr (.str "a1") "a:token" = some (.atom (.str "x")) ∧ o.nodeAttr (.str "b1") "a:token" = none := by decide +kernel

example : Reachable (mergeDoc "a" "ra" "a1" "a2" "as") := ⟨"", "a", some (.str "ra"), _, by decide, rfl⟩

/-- **C23 is violated**: if both graphs have the same root ID (which is the case by default for graphs with the same namespace), merging deletes the root of the receiving graph
together with its edges. -/
theorem c23_fails_for_equal_root_ids :
    let g := mergeDoc "a" "r" "a1" "a2" "as"
    let o := mergeDoc "b" "r" "b1" "b2" "bs"
    g.HasNode g.root ∧ g.HasEdge (.str "r") (.str "as") (.int 0) ∧ (g.mergeGraphs o mergeSched).2 = none ∧
    ¬ (g.mergeGraphs o mergeSched).1.HasNode g.root ∧ ¬ (g.mergeGraphs o mergeSched).1.HasEdge (.str "r") (.str "as") (.int 0) := by decide +kernel

end DG
end Dg
