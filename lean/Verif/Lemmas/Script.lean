import Verif.Spec.Script
import Verif.Lemmas.NodesLayered
import Verif.Lemmas.SetAttr
import Verif.Lemmas.AddsEdges
import Mathlib.Tactic.Tauto

/-! What a graph contains after a list of calls. -/

namespace Dg
open Dict
namespace DG

/-- the graph `g'` is `g` extended by exactly what the calls `s` say -/
structure Built (g : DG) (s : List Instr) (g' : DG) : Prop where
  inv : Inv g'
  layered : NodesLayered False g'
  name : g'.name = g.name
  ns : g'.ns = g.ns
  root : g'.root = g.root
  mergedRoots : g'.mergedRoots = g.mergedRoots
  renamed : g'.renamed = g.renamed
  tokens : g'.tokens = g.tokens ++ s.flatMap Instr.newTokens
  sentences : g'.sentences = g.sentences ++ s.flatMap Instr.newSentences
  nodes : ∀ m, g'.HasNode m ↔ g.HasNode m ∨ ∃ i ∈ s, i.Mentions m
  attr : ∀ m k, k ≠ "layers" → g'.nodeAttr m k = (lastWrite m k s).or (g.nodeAttr m k)
  layer : ∀ m l, g'.NodeLayer m l ↔ g.NodeLayer m l ∨ (∃ i ∈ s, i.GivesLayer m l) ∨ (¬ g.HasNode m ∧ Implicit m s ∧ l = .str g.ns)
  edgeOf : ∀ u v a, g'.EdgeWith u v a → g.EdgeWith u v a ∨ ∃ ls at', .edge u v ls at' ∈ s ∧ MatchesArgs a ls at'
  edgeOld : ∀ u v a, g.EdgeWith u v a → g'.EdgeWith u v a
  edgeNew : ∀ u v ls at', .edge u v ls at' ∈ s → ∃ a, g'.EdgeWith u v a ∧ MatchesArgs a ls at'
  count : ∀ u v, g'.edgeCount u v = g.edgeCount u v + s.countP (Instr.isEdge u v)

theorem hasNode_some (g : DG) (n : NodeId) : g.HasNode n ↔ ∃ a, g.nodeAttrs n = some a := mem_keys_iff _ _

theorem checkLayers_strs (g : DG) {ls : List String} (h : ls ≠ []) : g.checkLayers (.set (ls.map Atom.str)) = .ok (ls.map Atom.str) := by
  rw [checkLayers_iff]
  exact .given (by simpa using h) (by intro x hx; obtain ⟨s, _, rfl⟩ := List.mem_map.1 hx; exact ⟨s, rfl⟩)

theorem built_nil {g : DG} (hi : Inv g) (hl : NodesLayered False g) : Built g [] g :=
  ⟨hi, hl, rfl, rfl, rfl, rfl, rfl, by simp, by simp, by simp, by simp [lastWrite], by simp [Implicit], fun _ _ _ h => .inl h, fun _ _ _ h => h, by simp, fun _ _ => rfl⟩

theorem built_node {g : DG} (hi : Inv g) (hl : NodesLayered False g) (n : NodeId) {ls : List String} {at' : Attrs} (h1 : ls ≠ []) (h2 : (keys at').Nodup) : ∃ g', (Instr.node n ls at').exec g = .ok g' ∧ Built g [.node n ls at'] g' := by
  have hc := checkLayers_strs g h1
  have hex : ∃ g', g.addNode n (.set (ls.map Atom.str)) .none at' = .ok g' := by
    unfold addNode
    rw [hc]
    simp only [bind, Except.bind, mergeAttrArg]
    cases hn : find g.nodes n with
    | none => exact ⟨_, rfl⟩
    | some old =>
      obtain ⟨xs, e1, _, _⟩ := hl n old hn
      simp [layerSet, e1]
  obtain ⟨g', hg'⟩ := hex
  refine ⟨g', hg', ?_⟩
  have hi' := inv_addNode hi h2 (ad := .none) trivial hg'
  have hl' := nodesLayered_addNode hl h2 hg'
  have hkd := kd?_addNode hi.wf hg'
  have hedge : ∀ u v k, g'.edgeAttrs u v k = g.edgeAttrs u v k := edgeAttrs_of_kd? hkd
  obtain ⟨ls', A, hls', hA, hcase⟩ := addNode_ok hg'
  rw [hc] at hls'
  obtain rfl := Except.ok.inj hls'
  have hAl : find A "layers" = some (.set (ls.map Atom.str)) := mergeAttrArg_layers hA h2
  have hAf : ∀ k, k ≠ "layers" → find A k = find at' k := by
    intro k hk
    rw [mergeAttrArg_find hA h2 hk]
    simp [argFind]
  have ndA := mergeAttrArg_nodup hA h2 (ad := .none) trivial
  have hmeta : SameMeta g g' := by
    rcases hcase with ⟨_, rfl⟩ | ⟨old, ex, _, _, rfl⟩
    · exact sameMeta_newNode _ _ _
    · exact ⟨rfl, rfl, rfl, rfl, rfl, rfl, rfl⟩
  obtain ⟨m1, m2, m3, m4, m5, m6, m7⟩ := hmeta
  refine ⟨hi', hl', m1, m2, m3, m6, m7, by rw [m4]; simp [Instr.newTokens], by rw [m5]; simp [Instr.newSentences], ?_, ?_, ?_, ?_, ?_, ?_, ?_⟩
  · intro m
    rw [hasNode_some, hasNode_some]
    rcases hcase with ⟨hnone, rfl⟩ | ⟨old, ex, hold, hex, rfl⟩
    · rw [nodeAttrs_newNode]
      by_cases e : m = n <;> simp [e, Instr.Mentions]
    · rw [nodeAttrs_putNodes]
      by_cases e : m = n <;> simp [e, Instr.Mentions]
  · intro m k hk
    simp only [lastWrite, Instr.write, Option.none_or]
    unfold nodeAttr
    rcases hcase with ⟨hnone, rfl⟩ | ⟨old, ex, hold, hex, rfl⟩
    · rw [nodeAttrs_newNode]
      by_cases e : m = n
      · subst e
        have : g.nodeAttrs m = none := hnone
        simp [hAf k hk, this]
      · simp [e]
    · rw [nodeAttrs_putNodes]
      by_cases e : m = n
      · subst e
        have : g.nodeAttrs m = some old := hold
        rw [this, if_pos rfl, if_pos rfl]
        simp only [Option.bind_some]
        rw [find_put_ne _ _ (Ne.symm hk), find_upd _ (by exact nodup_del ndA _), find_del, if_neg (Ne.symm hk), hAf k hk]
      · simp [e]
  · intro m l
    have himp : ¬ Implicit m [Instr.node n ls at'] := by simp [Implicit, Instr.IsEdge]
    simp only [List.mem_singleton, exists_eq_left, himp, false_and, and_false, or_false, Instr.GivesLayer]
    unfold NodeLayer AttrsLayer
    rcases hcase with ⟨hnone, rfl⟩ | ⟨old, ex, hold, hex, rfl⟩
    · rw [nodeAttrs_newNode]
      by_cases e : m = n
      · subst e
        have : g.nodeAttrs m = none := hnone
        simp [hAl, this]
      · simp [e]
    · rw [nodeAttrs_putNodes]
      by_cases e : m = n
      · subst e
        have : g.nodeAttrs m = some old := hold
        rw [this, if_pos rfl]
        simp [hex, mem_setUnion]
      · simp [e]
  · rintro u v a ⟨k, h⟩
    exact .inl ⟨k, by rw [← hedge]; exact h⟩
  · rintro u v a ⟨k, h⟩
    exact ⟨k, by rw [hedge]; exact h⟩
  · simp
  · intro u v
    unfold edgeCount
    rw [hkd]
    rfl

theorem built_edge {g : DG} (hi : Inv g) (hl : NodesLayered False g) (u v : NodeId) {ls : List String} {at' : Attrs} (h1 : ls ≠ []) (h2 : (keys at').Nodup) : ∃ g', (Instr.edge u v ls at').exec g = .ok g' ∧ Built g [.edge u v ls at'] g' := by
  have hc := checkLayers_strs g h1
  obtain ⟨g', hg'⟩ := addEdge_isOk hi.wf (u := u) (v := v) (key := none) (ad := .none) (attr := at') hc (by simp)
    (fun u v k a h => by obtain ⟨xs, e, _⟩ := hi.edges u v k a h; exact ⟨xs, e⟩)
  refine ⟨g', hg', ?_⟩
  obtain ⟨ls', k, a, hls', hk, _, hi', hkd, hfind, ⟨L, hL1, hL2, hL3⟩, hnodes⟩ := addEdge_view hi h2 (ad := .none) trivial hg'
  rw [hc] at hls'
  obtain rfl := Except.ok.inj hls'
  obtain ⟨m1, m2, m3, m4, m5, m6, m7⟩ := sameMeta_addEdge hi h2 (ad := .none) trivial hg'
  have hedge := edgeAttrs_of_put hkd
  have hfresh : g.edgeAttrs u v k = none := by
    have := not_hasEdge_freshKey (g := g) u v
    rw [Option.getD_none] at hk
    rw [← hk] at this
    unfold HasEdge at this
    cases he : g.edgeAttrs u v k with
    | none => rfl
    | some b => rw [he] at this; simp at this
  have hmatch : MatchesArgs a ls at' := by
    constructor
    · intro x hx
      rw [hfind x hx]
      unfold edgeAttr
      rw [hfresh]
      simp [argFind]
    · intro l
      unfold AttrsLayer
      rw [hL1]
      constructor
      · rintro ⟨xs, e, hlx⟩
        obtain rfl := Val.set.inj (Option.some.inj e)
        rcases (hL3 l).1 hlx with h | h
        · obtain ⟨b, hb, _⟩ := h
          rw [hfresh] at hb
          simp at hb
        · exact h
      · intro h
        exact ⟨L, rfl, (hL3 l).2 (.inr h)⟩
  refine ⟨hi', nodesLayered_of_ensure hl hnodes, m1, m2, m3, m6, m7, by rw [m4]; simp [Instr.newTokens], by rw [m5]; simp [Instr.newSentences], ?_, ?_, ?_, ?_, ?_, ?_, ?_⟩
  · intro m
    rw [hasNode_some, hasNode_some, hnodes]
    by_cases e : m = u ∨ m = v
    · simp [e, Instr.Mentions]
    · simp [e, Instr.Mentions]
  · intro m x hx
    simp only [lastWrite, Instr.write, Option.none_or]
    unfold nodeAttr
    rw [hnodes]
    by_cases e : m = u ∨ m = v
    · rw [if_pos e]
      cases hm : g.nodeAttrs m with
      | none => simp [find, Ne.symm hx]
      | some b => simp
    · rw [if_neg e]
  · intro m l
    simp only [List.mem_singleton, exists_eq_left, Instr.GivesLayer, Implicit, Instr.Mentions, Instr.IsEdge, and_true, and_false, or_false, false_or]
    unfold NodeLayer
    rw [hnodes, hasNode_some]
    by_cases e : m = u ∨ m = v
    · rw [if_pos e]
      cases hm : g.nodeAttrs m with
      | none => simp [AttrsLayer, e, find]
      | some b => simp
    · simp [e]
  · rintro x y b ⟨k', h⟩
    rw [hedge] at h
    split at h
    · rename_i hxy
      obtain ⟨rfl, rfl, rfl⟩ := hxy
      obtain rfl := Option.some.inj h
      exact .inr ⟨ls, at', by simp, hmatch⟩
    · exact .inl ⟨k', h⟩
  · rintro x y b ⟨k', h⟩
    refine ⟨k', ?_⟩
    rw [hedge]
    split
    · rename_i hxy
      obtain ⟨rfl, rfl, rfl⟩ := hxy
      rw [hfresh] at h
      simp at h
    · exact h
  · intro x y ls' at'' h
    rw [List.mem_singleton] at h
    injection h with e1 e2 e3 e4
    subst e1 e2 e3 e4
    exact ⟨a, ⟨k, by rw [hedge]; simp⟩, hmatch⟩
  · intro x y
    unfold edgeCount
    rw [hkd, List.countP_singleton]
    simp only [Instr.isEdge, decide_eq_true_eq]
    by_cases e : x = u ∧ y = v
    · obtain ⟨rfl, rfl⟩ := e
      rw [if_pos ⟨rfl, rfl⟩, if_pos ⟨rfl, rfl⟩, Option.getD_some, put_of_not_mem]
      · simp
      · intro hmem
        obtain ⟨b, hb⟩ := (mem_keys_iff _ _).1 hmem
        unfold edgeAttrs at hfresh
        cases hk2 : g.kd? x y with
        | none => rw [hk2] at hb; simp at hb
        | some d =>
          rw [hk2] at hb hfresh
          simp only [Option.getD_some, Option.bind_some] at hb hfresh
          rw [hfresh] at hb
          cases hb
    · rw [if_neg e, if_neg e]
      rfl

theorem built_attr {g : DG} (hi : Inv g) (hl : NodesLayered False g) (n : NodeId) (k : String) (v : Val) (h1 : g.HasNode n) (h2 : k ≠ "layers") :
    ∃ g', (Instr.attr n k v).exec g = .ok g' ∧ Built g [.attr n k v] g' := by
  obtain ⟨a, ha⟩ := (hasNode_some g n).1 h1
  have hg' := setAttr_ok ha k v
  refine ⟨_, hg', ?_⟩
  generalize hgg : ({ g with nodes := put g.nodes n (put a k v) } : DG) = g' at hg' ⊢
  obtain ⟨f1, f2, m1, m2, m3, m4, m5, m6, m7⟩ := setAttr_frame hg'
  have hedge : ∀ u v k, g'.edgeAttrs u v k = g.edgeAttrs u v k := edgeAttrs_of_kd? (fun u v => kd?_adj f2 u v)
  refine ⟨inv_setAttr hi hg', nodesLayered_setAttr h2 hl hg', m1, m2, m3, m6, m7, by rw [m4]; simp [Instr.newTokens], by rw [m5]; simp [Instr.newSentences], ?_, ?_, ?_, ?_, ?_, ?_, ?_⟩
  · intro m
    unfold HasNode
    rw [f1]
    simp [Instr.Mentions]
  · intro m x hx
    rw [nodeAttr_setAttr hg']
    simp only [lastWrite, Instr.write, Option.none_or]
    by_cases e : m = n ∧ x = k <;> simp [e]
  · intro m l
    simp only [List.mem_singleton, exists_eq_left, Instr.GivesLayer, Implicit, Instr.Mentions, Instr.IsEdge, and_false, or_false, false_and]
    have h3 := layers_setAttr h2 hg' m
    unfold NodeLayer AttrsLayer
    unfold nodeAttr at h3
    cases hb : g.nodeAttrs m with
    | none =>
      cases hb' : g'.nodeAttrs m with
      | none => simp
      | some b' =>
        have : g'.HasNode m := (hasNode_some _ _).2 ⟨b', hb'⟩
        unfold HasNode at this
        rw [f1] at this
        obtain ⟨b, hb2⟩ := (hasNode_some g m).1 this
        rw [hb] at hb2
        simp at hb2
    | some b =>
      have : g'.HasNode m := by unfold HasNode; rw [f1]; exact (hasNode_some g m).2 ⟨b, hb⟩
      obtain ⟨b', hb'⟩ := (hasNode_some _ _).1 this
      rw [hb, hb'] at h3
      simp only [Option.bind_some] at h3
      rw [hb']
      simp only [Option.some.injEq, exists_eq_left']
      rw [h3]
  · rintro u v a ⟨k, h⟩
    exact .inl ⟨k, by rw [← hedge]; exact h⟩
  · rintro u v a ⟨k, h⟩
    exact ⟨k, by rw [hedge]; exact h⟩
  · simp
  · intro u v
    unfold edgeCount
    rw [kd?_adj f2]
    rfl

theorem built_token {g : DG} (hi : Inv g) (hl : NodesLayered False g) (n : NodeId) : Built g [.token n] { g with tokens := g.tokens ++ [n] } :=
  ⟨inv_tokens hi _, hl, rfl, rfl, rfl, rfl, rfl, by simp [Instr.newTokens], by simp [Instr.newSentences], by simp [HasNode, Instr.Mentions],
    by intro m k _; simp [lastWrite, Instr.write]; rfl, by intro m l; simp [Implicit, Instr.GivesLayer, Instr.Mentions]; rfl, fun _ _ _ h => .inl h, fun _ _ _ h => h, by simp, fun _ _ => rfl⟩

theorem built_sentence {g : DG} (hi : Inv g) (hl : NodesLayered False g) (n : NodeId) : Built g [.sentence n] { g with sentences := g.sentences ++ [n] } :=
  ⟨inv_sentences hi _, hl, rfl, rfl, rfl, rfl, rfl, by simp [Instr.newTokens], by simp [Instr.newSentences], by simp [HasNode, Instr.Mentions],
    by intro m k _; simp [lastWrite, Instr.write]; rfl, by intro m l; simp [Implicit, Instr.GivesLayer, Instr.Mentions]; rfl, fun _ _ _ h => .inl h, fun _ _ _ h => h, by simp, fun _ _ => rfl⟩

theorem built_cons {g g1 g2 : DG} {i : Instr} {s : List Instr} (h1 : Built g [i] g1) (h2 : Built g1 s g2) : Built g (i :: s) g2 := by
  have hn1 : ∀ m, g1.HasNode m ↔ g.HasNode m ∨ i.Mentions m := by intro m; rw [h1.nodes]; simp
  refine ⟨h2.inv, h2.layered, h2.name.trans h1.name, h2.ns.trans h1.ns, h2.root.trans h1.root, h2.mergedRoots.trans h1.mergedRoots, h2.renamed.trans h1.renamed, ?_, ?_, ?_, ?_, ?_, ?_, ?_, ?_, ?_⟩
  · rw [h2.tokens, h1.tokens]; simp
  · rw [h2.sentences, h1.sentences]; simp
  · intro m
    rw [h2.nodes, hn1]
    simp only [List.mem_cons, exists_eq_or_imp, or_assoc]
  · intro m k hk
    rw [h2.attr m k hk, h1.attr m k hk]
    simp only [lastWrite, Option.none_or, Option.or_assoc]
  · intro m l
    rw [h2.layer, h1.layer, hn1, h1.ns]
    simp only [List.mem_cons, List.not_mem_nil, or_false, exists_eq_left, exists_eq_or_imp, Implicit, and_false]
    by_cases hm : i.Mentions m
    · simp only [hm, or_true, not_true_eq_false, false_and, true_and, or_false]
      generalize (∃ i, i ∈ s ∧ Instr.GivesLayer m l i) = P
      generalize g.NodeLayer m l = Q, Instr.GivesLayer m l i = R, (¬ g.HasNode m) = T
      tauto
    · simp only [hm, or_false, not_false_eq_true, true_and, false_and, false_or, and_false]
      generalize (∃ i, i ∈ s ∧ Instr.GivesLayer m l i) = P
      generalize g.NodeLayer m l = Q, Instr.GivesLayer m l i = R, (¬ g.HasNode m) = T
      tauto
  · intro u v a h
    rcases h2.edgeOf u v a h with h | ⟨ls, at', hm, hma⟩
    · rcases h1.edgeOf u v a h with h | ⟨ls, at', hm, hma⟩
      · exact .inl h
      · rw [List.mem_singleton] at hm
        exact .inr ⟨ls, at', by simp [hm], hma⟩
    · exact .inr ⟨ls, at', List.mem_cons_of_mem _ hm, hma⟩
  · intro u v a h
    exact h2.edgeOld u v a (h1.edgeOld u v a h)
  · intro u v ls at' h
    rcases List.mem_cons.1 h with h | h
    · obtain ⟨a, ha, hm⟩ := h1.edgeNew u v ls at' (by simp [h])
      exact ⟨a, h2.edgeOld u v a ha, hm⟩
    · exact h2.edgeNew u v ls at' h
  · intro u v
    rw [h2.count, h1.count, List.countP_cons, List.countP_cons, List.countP_nil]
    omega

/-- between two nodes there is at most one edge, if there is at most one call for them -/
theorem Built.keyUnique {g g' : DG} {s : List Instr} (hb : Built g s g') {u v : NodeId} (h0 : g.edgeCount u v = 0) (h1 : s.countP (Instr.isEdge u v) ≤ 1) {k k' : Key} {a a' : Attrs}
    (hk : g'.edgeAttrs u v k = some a) (hk' : g'.edgeAttrs u v k' = some a') : k = k' := by
  have hc := hb.count u v
  rw [h0, Nat.zero_add] at hc
  unfold edgeCount at hc
  unfold edgeAttrs at hk hk'
  cases hd : g'.kd? u v with
  | none => rw [hd] at hk; cases hk
  | some d =>
    rw [hd] at hk hk' hc
    simp only [Option.getD_some, Option.bind_some] at hk hk' hc
    have m1 := find_some_mem hk
    have m2 := find_some_mem hk'
    cases d with
    | nil => cases m1
    | cons x d =>
      cases d with
      | nil =>
        rw [List.mem_singleton] at m1 m2
        exact congrArg Prod.fst (m1.trans m2.symm)
      | cons y d => simp only [List.length_cons] at hc; omega

theorem exec_built {g : DG} (hi : Inv g) (hl : NodesLayered False g) (i : Instr) (h : i.Ok g.HasNode) : ∃ g', i.exec g = .ok g' ∧ Built g [i] g' := by
  cases i with
  | node n ls at' => exact built_node hi hl n h.1 h.2
  | edge u v ls at' => exact built_edge hi hl u v h.1 h.2
  | attr n k v => exact built_attr hi hl n k v h.1 h.2
  | token n => exact ⟨_, rfl, built_token hi hl n⟩
  | sentence n => exact ⟨_, rfl, built_sentence hi hl n⟩

theorem scriptOk_congr {s : List Instr} : ∀ {p q : NodeId → Prop}, (∀ m, p m ↔ q m) → ScriptOk p s → ScriptOk q s := by
  intro p q h hs
  have : p = q := funext fun m => propext (h m)
  rwa [← this]

/-- Calls with fine arguments succeed, and the result contains exactly what they say. -/
theorem execs_built (s : List Instr) : ∀ {g : DG}, Inv g → NodesLayered False g → ScriptOk g.HasNode s → ∃ g', execs g s = .ok g' ∧ Built g s g' := by
  induction s with
  | nil => intro g hi hl _; exact ⟨g, rfl, built_nil hi hl⟩
  | cons i s ih =>
    intro g hi hl h
    obtain ⟨g1, e1, b1⟩ := exec_built hi hl i h.1
    obtain ⟨g2, e2, b2⟩ := ih b1.inv b1.layered (scriptOk_congr (fun m => by rw [b1.nodes]; simp) h.2)
    refine ⟨g2, ?_, built_cons b1 b2⟩
    unfold execs at e2 ⊢
    rw [List.foldlM_cons, e1]
    exact e2

theorem execs_append (g : DG) (s s' : List Instr) : execs g (s ++ s') = (execs g s >>= fun g' => execs g' s') := by
  unfold execs
  rw [List.foldlM_append]

theorem execs_cons (g : DG) (i : Instr) (s : List Instr) : execs g (i :: s) = (i.exec g >>= fun g' => execs g' s) := by
  unfold execs
  rw [List.foldlM_cons]

theorem scriptOk_append {s s' : List Instr} : ∀ {has : NodeId → Prop}, ScriptOk has (s ++ s') ↔ ScriptOk has s ∧ ScriptOk (fun m => has m ∨ ∃ i ∈ s, i.Mentions m) s' := by
  induction s with
  | nil => intro has; simp [ScriptOk]
  | cons i s ih =>
    intro has
    rw [List.cons_append, ScriptOk, ScriptOk, ih, and_assoc]
    have : (fun m => (has m ∨ i.Mentions m) ∨ ∃ j ∈ s, j.Mentions m) = (fun m => has m ∨ ∃ j ∈ i :: s, j.Mentions m) := by
      funext m
      simp [or_assoc]
    rw [this]

theorem scriptOk_mono {s : List Instr} : ∀ {p q : NodeId → Prop}, (∀ m, p m → q m) → ScriptOk p s → ScriptOk q s := by
  induction s with
  | nil => intro p q _ _; trivial
  | cons i s ih =>
    intro p q h hs
    refine ⟨?_, ih (fun m => Or.imp (h m) id) hs.2⟩
    have := hs.1
    cases i with
    | attr n k v => exact ⟨h n this.1, this.2⟩
    | node => exact this
    | edge => exact this
    | token => exact this
    | sentence => exact this

end DG
end Dg
