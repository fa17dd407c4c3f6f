import Verif.Spec.DisGraph
import Verif.Lemmas.Dis
import Verif.Lemmas.Rst
import Verif.Lemmas.Script
import Verif.Lemmas.Exmaralda
import Verif.Lemmas.Tiger
import Verif.Lemmas.TigerRepair
import Verif.Lemmas.RstTokens
import Verif.Props.C34

/-! The calls made by the reader of .dis files. -/

namespace Dg
open Dict
open Rst (disRange disRole disLabel disBelow disParts disWords WellFormed NoMarks)

namespace DisPart

/-- the tree of a part in the file -/
def ptree (p : DisPart) : PTree := .node (disLabel p.nuc) (disRange p.first p.tree.edus.length :: .node ['r', 'e', 'l', '2', 'p', 'a', 'r'] [.leaf p.role] :: disBelow p.first p.tree)

/-- the calls for a part itself -/
def calls (ns : String) (tokenize : Bool) (p : DisPart) : List DG.Instr :=
  match p.tree with
  | .edu s => .node (p.node ns) [ns] [(qual ns "text", DG.strVal (joinChars [' '] (splitWs s))), ("label", .atom (.str (qual ns (String.ofList p.name) ++ ": " ++ String.ofList ((joinChars [' '] (splitWs s)).take 20))))] ::
      (if tokenize then p.words.zipIdx.flatMap (fun w => [DG.Instr.token (p.tokenNode ns w.2), .node (p.tokenNode ns w.2) [ns] [(qual ns "token", DG.strVal w.1), ("label", DG.strVal w.1)], .edge (p.node ns) (p.tokenNode ns w.2) [ns] []]) else [])
  | .rel _ _ => .node (p.node ns) [ns] [(qual ns "rel_type", DG.strVal p.role), (qual ns "node_type", DG.strVal ['s', 'p', 'a', 'n'])] :: DG.edgeCalls (p.edges ns tokenize)

end DisPart

theorem Rst.disParts_eq (first : Nat) (name : List Char) (nucs : List Nuc) (kids : List (Nuc × Rst)) : disParts first name nucs kids = (Rst.dirParts first name nucs kids).map DisPart.ptree := by
  induction kids generalizing first with
  | nil => simp [disParts, dirParts]
  | cons k ks ih => obtain ⟨n, t⟩ := k; rw [disParts, dirParts, List.map_cons, ih]; rfl

theorem Rst.visitedKids_eq (first : Nat) (name : List Char) (nucs : List Nuc) (kids : List (Nuc × Rst)) : Rst.visitedKids first name nucs false kids = (Rst.dirParts first name nucs kids).flatMap DisPart.visited := by
  induction kids generalizing first with
  | nil => simp [visitedKids, dirParts]
  | cons k ks ih => obtain ⟨n, t⟩ := k; rw [visitedKids, dirParts, List.flatMap_cons, ih]; rfl

theorem Rst.visitedKids_skip (first : Nat) (name : List Char) (nucs : List Nuc) (kids : List (Nuc × Rst)) : Rst.visitedKids first name nucs true kids = (Rst.dirParts first name nucs kids).tail.flatMap DisPart.visited := by
  cases kids with
  | nil => simp [visitedKids, dirParts]
  | cons k ks => obtain ⟨n, t⟩ := k; rw [visitedKids, dirParts, visitedKids_eq]; rfl

/-- visiting a part -/
theorem DisPart.visited_eq (p : DisPart) : p.visited = p :: p.parts.tail.flatMap DisPart.visited := by
  obtain ⟨f, n, r, t⟩ := p
  cases t with
  | edu s => rfl
  | rel name kids => simp only [visited, Rst.visitedAt, Rst.visitedKids_skip, parts]

theorem Rst.dirParts_nucs (first : Nat) (name : List Char) (nucs : List Nuc) (kids : List (Nuc × Rst)) : (Rst.dirParts first name nucs kids).map DisPart.nuc = kids.map Prod.fst := by
  induction kids generalizing first with
  | nil => rfl
  | cons k ks ih => obtain ⟨n, t⟩ := k; rw [dirParts, List.map_cons, ih]; rfl

theorem Rst.dirParts_trees (first : Nat) (name : List Char) (nucs : List Nuc) (kids : List (Nuc × Rst)) : (Rst.dirParts first name nucs kids).map (fun p => (p.nuc, p.tree)) = kids := by
  induction kids generalizing first with
  | nil => rfl
  | cons k ks ih => obtain ⟨n, t⟩ := k; rw [dirParts, List.map_cons, ih]

theorem Rst.mem_dirParts {first : Nat} {name : List Char} {nucs : List Nuc} {kids : List (Nuc × Rst)} {p : DisPart} (h : p ∈ Rst.dirParts first name nucs kids) : (p.nuc, p.tree) ∈ kids := by
  have := List.mem_map_of_mem (f := fun p : DisPart => (p.nuc, p.tree)) h
  rwa [dirParts_trees] at this

theorem Rst.Part.trans {a b c : Rst} (h : Part a b) (h' : Part b c) : Part a c := by
  induction h' with
  | refl => exact h
  | kid hk _ ih => exact .kid hk ih

theorem Rst.WellFormed.part {t s : Rst} (h : t.WellFormed) (hp : Part s t) : s.WellFormed :=
  ⟨fun n ks hk => h.relation n ks (hk.trans hp), fun e he => h.nonblank e (he.trans hp)⟩

theorem Rst.NoMarks.part {t s : Rst} (h : t.NoMarks) (hp : Part s t) : s.NoMarks := fun e he => h e (he.trans hp)

/-- a part of a part -/
theorem DisPart.part {p q : DisPart} (h : q ∈ p.parts) : Rst.Part q.tree p.tree := by
  unfold parts at h
  cases ht : p.tree with
  | edu s => rw [ht] at h; cases h
  | rel name kids =>
    rw [ht] at h
    exact .kid (Rst.mem_dirParts h) (.refl _)

theorem Rst.edus_pos {t : Rst} (h : t.WellFormed) : 1 ≤ t.edus.length := by
  induction t using Rst.ind with
  | h1 s => simp [edus]
  | h2 a kids ih =>
    obtain ⟨hk, _⟩ := h.relation a kids (.refl _)
    have hne : kids ≠ [] := by
      rintro rfl
      rcases hk with hk | hk | ⟨hk, _⟩ <;> simp at hk
    obtain ⟨k, ks, rfl⟩ := List.exists_cons_of_ne_nil hne
    obtain ⟨n, t⟩ := k
    have := ih (n, t) (by simp) (h.part (.kid (n := n) (by simp) (.refl _)))
    simp only [edus, edusAll, List.length_append]
    simp only at this
    omega

theorem Rst.two_kids {t : Rst} {name : List Char} {kids : List (Nuc × Rst)} (h : t.WellFormed) (ht : t = .rel name kids) : ∃ k1 k2 ks, kids = k1 :: k2 :: ks := by
  obtain ⟨hk, _⟩ := h.relation name kids (ht ▸ .refl _)
  match kids, hk with
  | [], hk => rcases hk with hk | hk | ⟨hk, _⟩ <;> simp at hk
  | [k], hk => rcases hk with hk | hk | ⟨hk, _⟩ <;> simp at hk
  | k1 :: k2 :: ks, _ => exact ⟨k1, k2, ks, rfl⟩

theorem Rst.edus_rel {name : List Char} {kids : List (Nuc × Rst)} (h : (Rst.rel name kids).WellFormed) : 2 ≤ (Rst.rel name kids).edus.length := by
  obtain ⟨k1, k2, ks, rfl⟩ := Rst.two_kids h rfl
  obtain ⟨n1, t1⟩ := k1
  obtain ⟨n2, t2⟩ := k2
  have h1 := Rst.edus_pos (h.part (.kid (n := n1) (k := t1) (by simp) (.refl _)))
  have h2 := Rst.edus_pos (h.part (.kid (n := n2) (k := t2) (by simp) (.refl _)))
  simp only [edus, edusAll, List.length_append]
  omega

/-- the kinds of children -/
theorem disTreeType_ptree (p : DisPart) : disTreeType p.ptree = .ok (if p.nuc = .N then .nuc else .sat) := by
  unfold DisPart.ptree disTreeType
  cases p.nuc <;> rfl

theorem disChildTypes_ptree (ps : List DisPart) : disChildTypes (ps.map DisPart.ptree) = .ok (ps.map (fun p => if p.nuc = .N then .nuc else .sat)) := by
  induction ps with
  | nil => rfl
  | cons p ps ih => rw [List.map_cons, disChildTypes, disTreeType_ptree, ih]; rfl

theorem disIsLeafNode_range (f n : Nat) (ks : List PTree) : disIsLeafNode (disRange f n :: ks) = .ok (decide (n = 1)) := by
  unfold disRange
  by_cases h : n = 1
  · rw [if_pos h]; simp [disIsLeafNode, h]
  · rw [if_neg h]; simp [disIsLeafNode, h]

theorem disNodeName_range (f n : Nat) (ks : List PTree) : disNodeName (disRange f n :: ks) = .ok (if n = 1 then decimal f else ['s', 'p', 'a', 'n', ':'] ++ decimal f ++ ['-'] ++ decimal (f + n - 1)) := by
  unfold disNodeName
  rw [disIsLeafNode_range]
  unfold disRange
  by_cases h : n = 1
  · simp [h, bind, Except.bind, PTree.leaves, PTree.leavesAll]
  · simp [h, bind, Except.bind, PTree.leaves, PTree.leavesAll]

theorem DisPart.name_eq {p : DisPart} (h : p.tree.WellFormed) : (if p.tree.edus.length = 1 then decimal p.first else ['s', 'p', 'a', 'n', ':'] ++ decimal p.first ++ ['-'] ++ decimal (p.first + p.tree.edus.length - 1)) = p.name := by
  obtain ⟨f, n, r, t⟩ := p
  cases t with
  | edu s => rfl
  | rel name kids =>
    have := Rst.edus_rel h
    simp only at this ⊢
    rw [if_neg (by omega)]
    rfl

theorem disNodeName_ptree {p : DisPart} (h : p.tree.WellFormed) (rest : List PTree) : disNodeName (disRange p.first p.tree.edus.length :: rest) = .ok p.name := by
  rw [disNodeName_range, DisPart.name_eq h]

namespace DG

theorem disNodeId_ptree (ns : String) {p : DisPart} (h : p.tree.WellFormed) : disNodeId ns p.ptree = .ok (qual ns (String.ofList p.name)) := by
  simp only [DisPart.ptree, disNodeId]
  rw [disNodeName_ptree h]
  rfl

theorem addNode_default (g : DG) (n : NodeId) (d : Attrs) : g.addNode n (.atom .none) (.dict d) [] = (Instr.node n [g.ns] d).exec g := by
  rw [← addNode_dict]
  unfold addNode
  have : g.checkLayers (.atom .none) = g.checkLayers (.set ([g.ns].map Atom.str)) := by
    rw [checkLayers_strs g (by simp)]; rfl
  rw [this]

theorem addEdge_default_dict (g : DG) (u v : NodeId) (d at' : Attrs) : g.addEdge u v (.atom .none) none (.dict d) at' = g.addEdge u v (.set ([g.ns].map Atom.str)) none (.dict d) at' := by
  unfold addEdge
  have : g.checkLayers (.atom .none) = g.checkLayers (.set ([g.ns].map Atom.str)) := by
    rw [checkLayers_strs g (by simp)]; rfl
  rw [this]

/-- the graph is a legal state of the reader -/
structure DisState (ns : String) (g : DG) : Prop where
  inv : Inv g
  layered : NodesLayered False g
  ns : g.ns = ns

theorem execs_state {ns : String} {g : DG} (h : DisState ns g) {s : List Instr} (hs : ∀ i ∈ s, i.Ok (fun _ => False)) : ∃ g', execs g s = .ok g' ∧ DisState ns g' ∧ Built g s g' := by
  obtain ⟨g', e, b⟩ := execs_built s h.inv h.layered (scriptOk_free hs)
  exact ⟨g', e, ⟨b.inv, b.layered, b.ns.trans h.ns⟩, b⟩

/-- the calls for the words of an EDU -/
theorem disAddTokens {ns : String} (p : DisPart) (ws : List (List Char × Nat)) (hp : p.name = decimal p.first) (g : DG) (h : g.ns = ns) :
    ws.foldlM (disAddToken (qual ns (String.ofList p.name))) g =
      execs g (ws.flatMap (fun w => [Instr.token (p.tokenNode ns w.2), .node (p.tokenNode ns w.2) [ns] [(qual ns "token", strVal w.1), ("label", strVal w.1)], .edge (p.node ns) (p.tokenNode ns w.2) [ns] []])) := by
  have hid : ∀ i, qual ns (String.ofList p.name) ++ String.ofList (['_'] ++ decimal i) = qual ns (String.ofList (decimal p.first ++ ['_'] ++ decimal i)) := by
    intro i
    rw [hp]
    unfold qual
    rw [String.append_assoc, String.append_assoc, ← String.ofList_append, List.append_assoc]
  refine foldlM_calls (ns := ns) (r := g.root) _ _ ws ?_ g h rfl
  intro g w _ hns _
  unfold disAddToken
  dsimp only
  rw [hid]
  simp only [execs_cons, execs_nil, Instr.exec, bind, Except.bind]
  have e1 := addNode_default { g with tokens := g.tokens ++ [p.tokenNode ns w.2] } (p.tokenNode ns w.2) [(qual g.ns "token", strVal w.1), ("label", strVal w.1)]
  rw [show NodeId.str (qual ns (String.ofList (decimal p.first ++ ['_'] ++ decimal w.2))) = p.tokenNode ns w.2 from rfl, e1]
  subst hns
  simp only [Instr.exec]
  cases hg : ({ g with tokens := g.tokens ++ [p.tokenNode g.ns w.2] } : DG).addNode (p.tokenNode g.ns w.2) (.set ([g.ns].map Atom.str)) .none [(qual g.ns "token", strVal w.1), ("label", strVal w.1)] with
  | error e => rfl
  | ok g2 =>
    dsimp only
    have h2 : g2.ns = g.ns := (exec_ns_root (i := .node (p.tokenNode g.ns w.2) [g.ns] [(qual g.ns "token", strVal w.1), ("label", strVal w.1)]) hg).1
    rw [addEdge_default, h2]
    simp only [Instr.exec]
    show g2.addEdge (p.node g.ns) _ _ _ _ _ = _
    cases g2.addEdge (p.node g.ns) (p.tokenNode g.ns w.2) (.set ([g.ns].map Atom.str)) none .none [] <;> rfl

theorem edgeCalls_ns {ns : String} (u : NodeId) (cs : List DisPart) (at' : DisPart → Attrs) (hd : ∀ c ∈ cs, c.tree.WellFormed) (f : DG → PTree → Except PyErr DG)
    (hf : ∀ g : DG, g.ns = ns → ∀ c ∈ cs, f g c.ptree = (Instr.edge u (c.node ns) [ns] (at' c)).exec g) (g : DG) (h : g.ns = ns) :
    (cs.map DisPart.ptree).foldlM f g = execs g (edgeCalls (cs.map (fun c => ⟨u, c.node ns, [ns], at' c⟩))) := by
  induction cs generalizing g with
  | nil => rfl
  | cons c cs ih =>
    rw [List.map_cons, List.foldlM_cons, hf g h c (by simp), List.map_cons]
    show _ = execs g (_ :: edgeCalls _)
    rw [execs_cons]
    cases hg : (Instr.edge u (c.node ns) [ns] (at' c)).exec g with
    | error e => rfl
    | ok g1 => exact ih (fun c hc => hd c (by simp [hc])) (fun g hg c hc => hf g hg c (by simp [hc])) g1 ((exec_ns_root hg).1.trans h)

/-- the edges from a span -/
theorem disSpanEdges_eq {ns : String} (tokenize : Bool) {p : DisPart} (hw : p.tree.WellFormed) {name : List Char} {kids : List (Nuc × Rst)} (ht : p.tree = .rel name kids) (g : DG) (h : g.ns = ns) :
    g.disSpanEdges (qual ns (String.ofList p.name)) (if p.nuc = .N then .nuc else .sat) p.role (p.parts.tail.map DisPart.ptree) =
      if p.Conflict then .error .notImplemented else execs g (edgeCalls (p.edges ns tokenize)) := by
  obtain ⟨hk, _⟩ := hw.relation name kids (ht ▸ .refl _)
  have hn : p.parts.map DisPart.nuc = kids.map Prod.fst := by simp only [DisPart.parts, ht, Rst.dirParts_nucs]
  have hw' : ∀ c ∈ p.parts.tail, c.tree.WellFormed := fun c hc => hw.part (DisPart.part (List.mem_of_mem_tail hc))
  have hwords : p.words = [] := by simp only [DisPart.words, ht]
  have hedges : p.edges ns tokenize = p.parts.tail.map (fun c => ⟨p.node ns, c.node ns, [ns], (qual ns "rel_type", strVal p.role) :: (if c.nuc = .S then [("edge_type", .atom (.str "dominates"))] else [])⟩) := by
    unfold DisPart.edges
    rw [hwords]
    cases tokenize <;> rfl
  have ql : "layers" ≠ qual ns "rel_type" := fun h => qual_ne_plain (by decide) h.symm
  have qe : "edge_type" ≠ qual ns "rel_type" := fun h => qual_ne_plain (by decide) h.symm
  unfold disSpanEdges
  rw [disChildTypes_ptree]
  simp only [except_bind_ok]
  rw [if_neg (by
    intro hm
    obtain ⟨c, _, hc⟩ := List.mem_map.1 hm
    revert hc
    cases c.nuc <;> simp)]
  by_cases hS : kids.map Prod.fst = [.N, .S]
  · obtain ⟨a, b, hab⟩ : ∃ a b, p.parts = [a, b] := by
      rw [hS] at hn
      have hl := congrArg List.length hn
      rw [List.length_map] at hl
      exact List.length_eq_two.1 hl
    rw [hab] at hn hw' hedges ⊢
    rw [hS] at hn
    simp only [List.map_cons, List.map_nil, List.cons.injEq, and_true] at hn
    obtain ⟨ha, hb⟩ := hn
    have hc : p.Conflict ↔ p.nuc = .S := by
      unfold DisPart.Conflict
      rw [hab]
      simp [ha, hb]
    rw [hedges]
    simp only [List.tail_cons, List.map_cons, List.map_nil, hb]
    rw [if_neg (by simp), if_pos (by simp)]
    by_cases hp : p.nuc = .S
    · rw [if_pos (hc.2 hp), hp, if_neg (by decide)]
    · have hpN : p.nuc = .N := by cases hx : p.nuc with | N => rfl | S => exact absurd hx hp
      rw [if_neg (fun hx => hp (hc.1 hx)), hpN, if_pos (by rfl)]
      simp only [List.head?_cons, Option.getD_some, h]
      rw [disNodeId_ptree ns (hw' b (by simp))]
      simp only [except_bind_ok, if_pos]
      rw [addEdge_default_dict, h, addEdge_append _ _ _ _ (by simp [keys]) (by simp [keys, qe]) (by simp [keys, ql]) (by simp [keys])]
      show _ = execs g [_]
      rw [execs_one]
      rfl
  · have hN : ∀ c ∈ p.parts.tail, c.nuc = .N := by
      rcases hk with hk | hk | ⟨_, hk⟩
      · exact absurd hk hS
      · intro c hc
        rw [hk] at hn
        have := List.mem_map_of_mem (f := DisPart.nuc) hc
        rw [List.map_tail, hn] at this
        simpa using this
      · intro c hc
        have := List.mem_map_of_mem (f := DisPart.nuc) (List.mem_of_mem_tail hc)
        rw [hn] at this
        obtain ⟨k, hk', e⟩ := List.mem_map.1 this
        rw [← e, hk k hk']
    have hcf : ¬ p.Conflict := by
      rintro ⟨_, hx⟩
      exact hS (hn.symm.trans hx)
    rw [if_neg hcf, if_pos (by
      intro hm
      obtain ⟨c, hc, e⟩ := List.mem_map.1 hm
      rw [hN c hc] at e
      exact absurd e (by decide)), hedges]
    refine edgeCalls_ns (ns := ns) (p.node ns) _ (fun c => (qual ns "rel_type", strVal p.role) :: (if c.nuc = .S then [("edge_type", .atom (.str "dominates"))] else [])) hw' _ ?_ g h
    intro g hg c hc
    rw [hg, disNodeId_ptree ns (hw' c hc)]
    simp only [except_bind_ok]
    rw [addEdge_default_dict, hg, addEdge_append _ _ _ _ (by simp [keys]) (by simp [keys]) (by simp [keys, ql]) (by simp [keys])]
    rw [hN c hc]
    rfl

theorem DisPart.calls_ok (ns : String) (tokenize : Bool) (p : DisPart) : ∀ i ∈ p.calls ns tokenize, i.Ok (fun _ => False) := by
  have q1 : qual ns "rel_type" ≠ qual ns "node_type" := fun h => absurd (qual_inj h) (by decide)
  have q2 : ∀ s, qual ns s ≠ "label" := fun s h => qual_ne_plain (by decide) h
  have q3 : ∀ s, qual ns s ≠ "edge_type" := fun s h => qual_ne_plain (by decide) h
  intro i hi
  unfold DisPart.calls at hi
  cases ht : p.tree with
  | edu s =>
    rw [ht] at hi
    simp only [List.mem_cons] at hi
    rcases hi with rfl | hi
    · exact ⟨by simp, by simp [keys, q2]⟩
    · cases tokenize with
      | false => cases hi
      | true =>
        rw [if_pos rfl] at hi
        obtain ⟨w, _, hi⟩ := List.mem_flatMap.1 hi
        simp only [List.mem_cons, List.not_mem_nil, or_false] at hi
        rcases hi with rfl | rfl | rfl
        · trivial
        · exact ⟨by simp, by simp [keys, q2]⟩
        · exact ⟨by simp, by simp [keys]⟩
  | rel name kids =>
    rw [ht] at hi
    simp only [List.mem_cons] at hi
    rcases hi with rfl | hi
    · exact ⟨by simp, by simp [keys, q1]⟩
    · obtain ⟨e, he, rfl⟩ := List.mem_map.1 hi
      unfold DisPart.edges at he
      rcases List.mem_append.1 he with he | he
      · cases tokenize with
        | false => cases he
        | true =>
          obtain ⟨w, _, rfl⟩ := List.mem_map.1 he
          exact ⟨by simp, by simp [keys]⟩
      · obtain ⟨c, _, rfl⟩ := List.mem_map.1 he
        refine ⟨by simp, ?_⟩
        split <;> simp [keys, q3]

theorem calls_all_ok (ns : String) (tokenize : Bool) (ps : List DisPart) : ∀ i ∈ ps.flatMap (DisPart.calls ns tokenize), i.Ok (fun _ => False) := by
  intro i hi
  obtain ⟨p, _, hi⟩ := List.mem_flatMap.1 hi
  exact DisPart.calls_ok ns tokenize p i hi

/-- reading parts one after the other -/
theorem parseDisTrees_eq {ns : String} (tokenize : Bool) (ps : List DisPart)
    (ih : ∀ p ∈ ps, ∀ g : DG, DisState ns g → parseDisTree tokenize p.ptree g = if ∃ q ∈ p.visited, q.Conflict then .error .notImplemented else execs g (p.visited.flatMap (DisPart.calls ns tokenize))) :
    ∀ g : DG, DisState ns g → parseDisTrees tokenize 0 (ps.map DisPart.ptree) g = if ∃ q ∈ ps.flatMap DisPart.visited, q.Conflict then .error .notImplemented else execs g ((ps.flatMap DisPart.visited).flatMap (DisPart.calls ns tokenize)) := by
  induction ps with
  | nil =>
    intro g h
    rw [if_neg (by simp)]
    simp [parseDisTrees, execs_nil]
  | cons p ps ihp =>
    intro g h
    rw [List.map_cons, parseDisTrees, ih p (by simp) g h]
    by_cases hc : ∃ q ∈ p.visited, q.Conflict
    · rw [if_pos hc, if_pos (by obtain ⟨q, hq, hc⟩ := hc; exact ⟨q, by simp [hq], hc⟩)]
      rfl
    · rw [if_neg hc]
      obtain ⟨g1, e1, s1, _⟩ := execs_state h (calls_all_ok ns tokenize p.visited)
      rw [e1]
      simp only [except_bind_ok]
      rw [ihp (fun p hp => ih p (by simp [hp])) g1 s1]
      have : (∃ q ∈ (p :: ps).flatMap DisPart.visited, q.Conflict) ↔ ∃ q ∈ ps.flatMap DisPart.visited, q.Conflict := by
        rw [List.flatMap_cons]
        constructor
        · rintro ⟨q, hq, hq'⟩
          rcases List.mem_append.1 hq with hq | hq
          · exact absurd ⟨q, hq, hq'⟩ hc
          · exact ⟨q, hq, hq'⟩
        · rintro ⟨q, hq, hq'⟩
          exact ⟨q, List.mem_append_right _ hq, hq'⟩
      by_cases hd : ∃ q ∈ ps.flatMap DisPart.visited, q.Conflict
      · rw [if_pos hd, if_pos (this.2 hd)]
      · rw [if_neg hd, if_neg (fun hx => hd (this.1 hx)), List.flatMap_cons, List.flatMap_append, execs_append, e1]
        rfl

/-- reading a part -/
theorem parseDisTree_eq {ns : String} (tokenize : Bool) (t : Rst) : ∀ (p : DisPart), p.tree = t → t.WellFormed → t.NoMarks → ∀ g : DG, DisState ns g →
    parseDisTree tokenize p.ptree g = if ∃ q ∈ p.visited, q.Conflict then .error .notImplemented else execs g (p.visited.flatMap (DisPart.calls ns tokenize)) := by
  induction t using Rst.ind with
  | h1 s =>
    intro p ht hw hm g h
    have hv : p.visited = [p] := by
      rw [DisPart.visited_eq]
      simp [DisPart.parts, ht]
    have hnc : ¬ ∃ q ∈ p.visited, q.Conflict := by
      rw [hv]
      rintro ⟨q, hq, hc⟩
      obtain rfl := List.mem_singleton.1 hq
      have := hc.2
      simp [DisPart.parts, ht] at this
    have hn := disNodeName_ptree (p := p) (ht ▸ hw)
    have hl := disIsLeafNode_range p.first p.tree.edus.length
    have hname : p.name = decimal p.first := by simp [DisPart.name, ht]
    rw [if_neg hnc, hv, List.flatMap_cons, List.flatMap_nil, List.append_nil]
    unfold DisPart.ptree
    rw [parseDisTree]
    have hty : disTreeType (.node (disLabel p.nuc) []) = .ok (if p.nuc = .N then .nuc else .sat) := by cases p.nuc <;> rfl
    rw [hty]
    simp only [except_bind_ok]
    rw [hn]
    simp only [except_bind_ok]
    rw [if_neg (by cases p.nuc <;> simp)]
    simp only [disRelationType, except_bind_ok]
    rw [hl]
    simp only [except_bind_ok]
    rw [if_pos (by simp [ht, Rst.edus])]
    have ht' : getEduText ((disRange p.first p.tree.edus.length :: .node ['r', 'e', 'l', '2', 'p', 'a', 'r'] [.leaf p.role] :: disBelow p.first p.tree).getLast?.getD .none) = .ok (joinChars [' '] (splitWs s)) := by
      rw [ht, disBelow]
      simp only [List.getLast?_cons_cons, List.getLast?_singleton, Option.getD_some]
      rw [getEduText_words (hw.nonblank s (.refl _)), readEdu_eq (hm s (.refl _))]
    rw [ht']
    simp only [except_bind_ok]
    unfold disAddLeaf DisPart.calls
    simp only [ht]
    rw [execs_cons, addNode_default, h.ns]
    have hwd : splitWs (joinChars [' '] (splitWs s)) = p.words := by simp [DisPart.words, ht, c34_words]
    rw [hwd]
    cases hg : (Instr.node (.str (qual ns (String.ofList p.name))) [ns] [(qual ns "text", strVal (joinChars [' '] (splitWs s))), ("label", .atom (.str (qual ns (String.ofList p.name) ++ ": " ++ String.ofList ((joinChars [' '] (splitWs s)).take 20))))]).exec g with
    | error e =>
      show _ = (Instr.exec g _ >>= _)
      rw [show (p.node ns) = .str (qual ns (String.ofList p.name)) from rfl, hg]
      rfl
    | ok g1 =>
      rw [show (p.node ns) = .str (qual ns (String.ofList p.name)) from rfl, hg]
      simp only [except_bind_ok]
      cases tokenize with
      | false => simp [execs_nil]
      | true =>
        rw [if_pos rfl, if_pos rfl]
        exact disAddTokens p _ hname g1 ((exec_ns_root hg).1.trans h.ns)
  | h2 a kids ih =>
    intro p ht hw hm g h
    have hn := disNodeName_ptree (p := p) (ht ▸ hw)
    have hl := disIsLeafNode_range p.first p.tree.edus.length
    have hlen : p.tree.edus.length ≠ 1 := by
      have := Rst.edus_rel hw
      rw [ht]; omega
    have hparts : disBelow p.first p.tree = p.parts.map DisPart.ptree := by
      rw [ht, disBelow, Rst.disParts_eq]
      simp [DisPart.parts, ht]
    obtain ⟨k1, k2, ks, hks⟩ := Rst.two_kids hw rfl
    rw [DisPart.visited_eq]
    unfold DisPart.ptree
    rw [parseDisTree]
    have hty : disTreeType (.node (disLabel p.nuc) []) = .ok (if p.nuc = .N then .nuc else .sat) := by cases p.nuc <;> rfl
    rw [hty]
    simp only [except_bind_ok]
    rw [hn]
    simp only [except_bind_ok]
    rw [if_neg (by cases p.nuc <;> simp)]
    simp only [disRelationType, except_bind_ok]
    rw [hl]
    simp only [except_bind_ok]
    rw [if_neg (by simp [hlen]), hparts, addNode_default, h.ns]
    obtain ⟨g1, e1, s1, _⟩ := execs_state h (s := [Instr.node (p.node ns) [ns] [(qual ns "rel_type", strVal p.role), (qual ns "node_type", strVal ['s', 'p', 'a', 'n'])]]) (by
      intro i hi
      have := DisPart.calls_ok ns tokenize p i
      unfold DisPart.calls at this
      rw [ht] at this
      exact this (by rw [List.mem_singleton.1 hi]; simp))
    rw [execs_one] at e1
    rw [show NodeId.str (qual ns (String.ofList p.name)) = p.node ns from rfl, e1]
    simp only [except_bind_ok, List.drop_succ_cons, List.drop_one, ← List.map_tail]
    rw [disSpanEdges_eq tokenize (ht ▸ hw) ht g1 s1.ns]
    by_cases hc : p.Conflict
    · rw [if_pos hc, if_pos ⟨p, by simp, hc⟩]
      rfl
    rw [if_neg hc]
    obtain ⟨g2, e2, s2, _⟩ := execs_state s1 (s := edgeCalls (p.edges ns tokenize)) (by
      intro i hi
      have := DisPart.calls_ok ns tokenize p i
      unfold DisPart.calls at this
      rw [ht] at this
      exact this (List.mem_cons_of_mem _ hi))
    rw [e2]
    simp only [except_bind_ok]
    have hskip : parseDisTrees tokenize 3 (disRange p.first p.tree.edus.length :: .node ['r', 'e', 'l', '2', 'p', 'a', 'r'] [.leaf p.role] :: p.parts.map DisPart.ptree) g2 = parseDisTrees tokenize 0 (p.parts.tail.map DisPart.ptree) g2 := by
      rw [parseDisTrees, parseDisTrees]
      cases hpp : p.parts with
      | nil => simp [parseDisTrees]
      | cons x xs => rw [List.map_cons, parseDisTrees]; rfl
    rw [hskip, parseDisTrees_eq tokenize p.parts.tail (by
      intro q hq g hg
      have hq' := List.mem_of_mem_tail hq
      have hpt := DisPart.part hq'
      rw [ht] at hpt
      refine ih (q.nuc, q.tree) ?_ q rfl (hw.part hpt) (hm.part hpt) g hg
      simp only [DisPart.parts, ht] at hq'
      exact Rst.mem_dirParts hq') g2 s2]
    have : (∃ q ∈ p :: p.parts.tail.flatMap DisPart.visited, q.Conflict) ↔ ∃ q ∈ p.parts.tail.flatMap DisPart.visited, q.Conflict := by
      constructor
      · rintro ⟨q, hq, hq'⟩
        rcases List.mem_cons.1 hq with rfl | hq
        · exact absurd hq' hc
        · exact ⟨q, hq, hq'⟩
      · rintro ⟨q, hq, hq'⟩
        exact ⟨q, List.mem_cons_of_mem _ hq, hq'⟩
    by_cases hd : ∃ q ∈ p.parts.tail.flatMap DisPart.visited, q.Conflict
    · rw [if_pos hd, if_pos (this.2 hd)]
    · rw [if_neg hd, if_neg (fun hx => hd (this.1 hx)), List.flatMap_cons, execs_append]
      have : execs g (p.calls ns tokenize) = .ok g2 := by
        unfold DisPart.calls
        rw [ht]
        simp only
        rw [execs_cons, e1]
        exact e2
      rw [this]
      rfl

end DG
end Dg
