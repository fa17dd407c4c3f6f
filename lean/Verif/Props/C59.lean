import Verif.Lemmas.DisRead
import Verif.Spec.Offsets
import Batteries.Lean.Except
import Mathlib.Logic.Relation

/-! **C59**: reading a .dis file into a document graph (`RSTLispDocumentGraph`). -/

namespace Dg
open Dict
open Rst (WellFormed NoMarks)
namespace DG

/-! ### edges and tokens of the calls -/

/-- the edge an `add_edge` call adds -/
def Instr.spec : Instr → Option EdgeSpec
  | .edge u v ls at' => some ⟨u, v, ls, at'⟩
  | _ => none

theorem mem_spec {s : List Instr} (u v : NodeId) (ls : List String) (at' : Attrs) : Instr.edge u v ls at' ∈ s ↔ (⟨u, v, ls, at'⟩ : EdgeSpec) ∈ s.filterMap Instr.spec := by
  rw [List.mem_filterMap]
  constructor
  · intro h; exact ⟨_, h, rfl⟩
  · rintro ⟨i, hi, e⟩
    cases i with
    | edge u' v' ls' at'' =>
      simp only [Instr.spec, Option.some.injEq, EdgeSpec.mk.injEq] at e
      obtain ⟨rfl, rfl, rfl, rfl⟩ := e
      exact hi
    | node => cases e
    | attr => cases e
    | token => cases e
    | sentence => cases e

theorem count_spec (s : List Instr) (u v : NodeId) : s.countP (Instr.isEdge u v) = (s.filterMap Instr.spec).countP (fun e => decide (e.source = u ∧ e.target = v)) := by
  induction s with
  | nil => rfl
  | cons i s ih =>
    rw [List.countP_cons, ih]
    cases i with
    | edge u' v' ls at' =>
      rw [List.filterMap_cons_some (show Instr.spec (.edge u' v' ls at') = some ⟨u', v', ls, at'⟩ from rfl), List.countP_cons]
      simp only [Instr.isEdge, decide_eq_true_eq]
      congr 1
      by_cases h : u = u' ∧ v = v'
      · rw [if_pos h, if_pos ⟨h.1.symm, h.2.symm⟩]
      · rw [if_neg h, if_neg (fun e => h ⟨e.1.symm, e.2.symm⟩)]
    | node => rw [List.filterMap_cons_none rfl]; simp [Instr.isEdge]
    | attr => rw [List.filterMap_cons_none rfl]; simp [Instr.isEdge]
    | token => rw [List.filterMap_cons_none rfl]; simp [Instr.isEdge]
    | sentence => rw [List.filterMap_cons_none rfl]; simp [Instr.isEdge]

theorem flatMap_filterMap {α β γ : Type} (f : β → Option γ) (h : α → List β) (xs : List α) : (xs.flatMap h).filterMap f = xs.flatMap (fun x => (h x).filterMap f) := by
  induction xs with
  | nil => rfl
  | cons x xs ih => rw [List.flatMap_cons, List.filterMap_append, ih]; rfl

theorem edgeCalls_spec (es : List EdgeSpec) : (edgeCalls es).filterMap Instr.spec = es := by
  induction es with
  | nil => rfl
  | cons e es ih => show e :: (edgeCalls es).filterMap Instr.spec = _; rw [ih]

theorem calls_spec (ns : String) (tokenize : Bool) (p : DisPart) : (p.calls ns tokenize).filterMap Instr.spec = p.edges ns tokenize := by
  unfold DisPart.calls
  cases ht : p.tree with
  | edu s =>
    simp only
    rw [List.filterMap_cons_none rfl]
    unfold DisPart.edges
    have : p.parts = [] := by simp [DisPart.parts, ht]
    rw [this]
    cases tokenize with
    | false => rfl
    | true =>
      simp only [if_true, List.tail_nil, List.map_nil, List.append_nil]
      rw [flatMap_filterMap]
      induction p.words.zipIdx with
      | nil => rfl
      | cons w ws ih => rw [List.flatMap_cons, ih]; rfl
  | rel name kids =>
    simp only
    rw [List.filterMap_cons_none rfl, edgeCalls_spec]

theorem cons_flatMap_perm {α β : Type} (f : α → β) (h : α → List β) (xs : List α) : (xs.flatMap (fun x => f x :: h x)).Perm (xs.map f ++ xs.flatMap h) := by
  induction xs with
  | nil => exact .nil
  | cons x xs ih =>
    rw [List.flatMap_cons, List.map_cons, List.flatMap_cons, List.cons_append, List.cons_append]
    refine List.Perm.cons _ ?_
    refine (List.Perm.append_left _ ih).trans ?_
    rw [← List.append_assoc, ← List.append_assoc]
    exact List.Perm.append_right _ List.perm_append_comm

theorem disCalls_spec (ns : String) (tokenize : Bool) (t : Rst) : ((disCalls ns tokenize t).filterMap Instr.spec).Perm (t.graphEdges ns tokenize) := by
  unfold disCalls Rst.graphEdges Rst.visited
  rw [flatMap_filterMap]
  have : (fun c : DisPart => (Instr.edge (t.docNode ns) (c.node ns) [ns] [("edge_type", .atom (.str "dominates"))] :: c.visited.flatMap (DisPart.calls ns tokenize)).filterMap Instr.spec) =
      fun c => (⟨t.docNode ns, c.node ns, [ns], [("edge_type", .atom (.str "dominates"))]⟩ : EdgeSpec) :: c.visited.flatMap (DisPart.edges ns tokenize) := by
    funext c
    show (⟨t.docNode ns, c.node ns, [ns], [("edge_type", .atom (.str "dominates"))]⟩ : EdgeSpec) :: (c.visited.flatMap (DisPart.calls ns tokenize)).filterMap Instr.spec = _
    rw [flatMap_filterMap]
    congr 2
    funext p
    exact calls_spec ns tokenize p
  rw [this, List.flatMap_assoc]
  exact cons_flatMap_perm _ _ _

theorem edgeCalls_tokens (es : List EdgeSpec) : (edgeCalls es).flatMap Instr.newTokens = [] := by
  rw [List.flatMap_eq_nil_iff]
  intro i hi
  obtain ⟨e, _, rfl⟩ := List.mem_map.1 hi
  rfl

theorem calls_tokens (ns : String) (p : DisPart) : (p.calls ns true).flatMap Instr.newTokens = p.words.zipIdx.map (fun w => p.tokenNode ns w.2) := by
  unfold DisPart.calls
  cases ht : p.tree with
  | edu s =>
    simp only [if_true]
    rw [List.flatMap_cons]
    show [] ++ _ = _
    rw [List.nil_append, List.flatMap_assoc]
    induction p.words.zipIdx with
    | nil => rfl
    | cons w ws ih => rw [List.flatMap_cons, ih]; rfl
  | rel name kids =>
    simp only
    rw [List.flatMap_cons, edgeCalls_tokens]
    simp [DisPart.words, ht, Instr.newTokens]

theorem calls_no_tokens (ns : String) (p : DisPart) : (p.calls ns false).flatMap Instr.newTokens = [] := by
  unfold DisPart.calls
  cases ht : p.tree with
  | edu s => rfl
  | rel name kids =>
    simp only
    rw [List.flatMap_cons, edgeCalls_tokens]
    rfl

theorem disCalls_tokens (ns : String) (tokenize : Bool) (t : Rst) : (disCalls ns tokenize t).flatMap Instr.newTokens = if tokenize then (t.graphTokens ns).map Prod.fst else [] := by
  unfold disCalls Rst.graphTokens Rst.visited
  rw [List.flatMap_assoc]
  cases tokenize with
  | true =>
    rw [if_pos rfl, List.map_flatMap, List.flatMap_assoc]
    congr 1
    funext c
    rw [List.flatMap_cons]
    show [] ++ _ = _
    rw [List.nil_append, List.flatMap_assoc]
    congr 1
    funext p
    rw [calls_tokens, List.map_map]
    rfl
  | false =>
    rw [if_neg (by decide), List.flatMap_eq_nil_iff]
    intro c _
    rw [List.flatMap_cons]
    show [] ++ _ = _
    rw [List.nil_append, List.flatMap_assoc, List.flatMap_eq_nil_iff]
    intro p _
    exact calls_no_tokens ns p

/-! ### words -/

theorem visited_words (t : Rst) : ∀ p : DisPart, p.tree = t → t.WellFormed → 1 ≤ (p.visited.flatMap DisPart.words).length := by
  induction t using Rst.ind with
  | h1 s =>
    intro p ht hw
    rw [DisPart.visited_eq, List.flatMap_cons, List.length_append]
    have : p.words = splitWs s := by simp [DisPart.words, ht]
    rw [this]
    have := splitWs_ne_nil (hw.nonblank s (.refl _))
    have := List.length_pos_iff.2 this
    omega
  | h2 a kids ih =>
    intro p ht hw
    obtain ⟨k1, k2, ks, hk⟩ := Rst.two_kids hw rfl
    rw [DisPart.visited_eq, List.flatMap_cons, List.length_append]
    have hp : p.parts = Rst.dirParts p.first a (kids.map Prod.fst) kids := by simp only [DisPart.parts, ht]
    have hlen := congrArg List.length (Rst.dirParts_trees p.first a (kids.map Prod.fst) kids)
    rw [List.length_map, ← hp, hk] at hlen
    obtain ⟨x, y, zs, hxy⟩ : ∃ x y zs, p.parts = x :: y :: zs := by
      match hpp : p.parts, hlen with
      | x :: y :: zs, _ => exact ⟨x, y, zs, rfl⟩
    have hy : y ∈ p.parts := by simp [hxy]
    have h1 := ih (y.nuc, y.tree) (by rw [hp] at hy; exact Rst.mem_dirParts hy) y rfl (hw.part (ht ▸ DisPart.part hy))
    rw [hxy]
    simp only [List.tail_cons, List.flatMap_cons, List.flatMap_append, List.length_append]
    omega

theorem graphTokens_words (ns : String) (t : Rst) : (t.graphTokens ns).map Prod.snd = t.visited.flatMap DisPart.words := by
  unfold Rst.graphTokens
  rw [List.map_flatMap]
  congr 1
  funext p
  rw [List.map_map]
  exact List.zipIdx_map_fst ..

theorem two_tokens (ns : String) {t : Rst} (hw : t.WellFormed) (ht : ∀ s, t ≠ .edu s) : 2 ≤ (t.graphTokens ns).length := by
  have : (t.graphTokens ns).length = (t.visited.flatMap DisPart.words).length := by rw [← graphTokens_words ns, List.length_map]
  rw [this]
  cases t with
  | edu s => exact absurd rfl (ht s)
  | rel a kids =>
    obtain ⟨k1, k2, ks, rfl⟩ := Rst.two_kids hw rfl
    obtain ⟨n1, t1⟩ := k1
    obtain ⟨n2, t2⟩ := k2
    unfold Rst.visited
    simp only [Rst.docParts, Rst.dirParts, List.flatMap_cons, List.flatMap_append, List.length_append]
    have h1 := visited_words t1 ⟨1, n1, Rst.disRole a (List.map Prod.fst ((n1, t1) :: (n2, t2) :: ks)) n1, t1⟩ rfl (hw.part (.kid (n := n1) (by simp) (.refl _)))
    have h2 := visited_words t2 ⟨1 + t1.edus.length, n2, Rst.disRole a (List.map Prod.fst ((n1, t1) :: (n2, t2) :: ks)) n2, t2⟩ rfl (hw.part (.kid (n := n2) (by simp) (.refl _)))
    omega

/-! ### the whole file -/

/-- all calls, with precedence -/
def disAllCalls (ns : String) (tokenize precedence : Bool) (t : Rst) : List Instr :=
  disCalls ns tokenize t ++ (if precedence then edgeCalls (precEdges ns (t.docNode ns) ((t.graphTokens ns).map Prod.fst)) else [])

theorem disRead_ok (name ns : String) (tokenize precedence : Bool) {t : Rst} (hw : t.WellFormed) (hm : t.NoMarks) (ht : ∀ s, t ≠ .edu s) (hr : t.Readable) (hp : precedence = true → tokenize = true) :
    ∃ g, disRead name ns tokenize precedence t.disDoc = .ok g ∧ Built (disRootGraph name ns t) (disAllCalls ns tokenize precedence t) g := by
  have h := disRead_plain name ns tokenize hw hm ht
  rw [if_neg (by rintro ⟨q, hq, hc⟩; exact hr q hq hc)] at h
  have hs := disRootGraph_state name ns t
  obtain ⟨g1, e1, s1, b1⟩ := execs_state hs (disCalls_ok ns tokenize t)
  rw [e1] at h
  have htok : g1.tokens = if tokenize then (t.graphTokens ns).map Prod.fst else [] := by
    rw [b1.tokens, disCalls_tokens]; rfl
  have hroot : g1.root = t.docNode ns := b1.root
  unfold disRead
  cases hg : disStart name ns with
  | error e => rw [hg] at h; cases h
  | ok g0 =>
    rw [hg] at h
    simp only [except_bind_ok] at h ⊢
    rw [h]
    simp only [except_bind_ok]
    unfold disAllCalls
    cases precedence with
    | false => exact ⟨g1, rfl, by simpa using b1⟩
    | true =>
      rw [hp rfl, if_pos rfl] at htok
      have h2 := two_tokens ns hw ht
      obtain ⟨g2, e2, e3⟩ := precedence_execs s1 (by rw [htok, List.length_map]; exact h2)
      refine ⟨g2, by rw [if_pos rfl]; exact e2, ?_⟩
      rw [htok, hroot] at e3
      rw [if_pos rfl]
      obtain ⟨g2', e4, b2⟩ := execs_built (g := g1) (edgeCalls (precEdges ns (t.docNode ns) ((t.graphTokens ns).map Prod.fst))) s1.inv s1.layered (edgeCalls_ok (by
        intro e he
        obtain ⟨p, _, rfl⟩ := List.mem_map.1 he
        exact ⟨by simp [precEdge], by simp [precEdge, keys]⟩) _)
      rw [e3] at e4
      obtain rfl := Except.ok.inj e4
      exact built_append hs.inv hs.layered b1 b2

/-- **C59 (which files can be read)**.  Let `t` be a well-formed rhetorical structure with at least one relation, no EDU of which contains the mark `_!`.  Reading its .dis file succeeds, unless one of the visited parts is a satellite that consists of a nucleus followed by a satellite (then NotImplementedError is raised), or precedence edges are wanted without tokens (AssertionError). -/
theorem c59_reads (name ns : String) (tokenize precedence : Bool) (t : Rst) (hw : t.WellFormed) (hm : t.NoMarks) (ht : ∀ s, t ≠ .edu s) :
    (t.Readable → (precedence = true → tokenize = true) → ∃ g, disRead name ns tokenize precedence t.disDoc = .ok g) ∧
    (¬ t.Readable → disRead name ns tokenize precedence t.disDoc = .error .notImplemented) ∧
    (t.Readable → disRead name ns false true t.disDoc = .error .assertion) := by
  refine ⟨fun hr hp => ?_, fun hr => ?_, fun hr => ?_⟩
  · obtain ⟨g, e, _⟩ := disRead_ok name ns tokenize precedence hw hm ht hr hp
    exact ⟨g, e⟩
  · have h := disRead_plain name ns tokenize hw hm ht
    rw [if_pos (by
      by_contra hn
      exact hr (fun q hq hc => hn ⟨q, hq, hc⟩))] at h
    unfold disRead
    cases hg : disStart name ns with
    | error e => rw [hg] at h; exact h
    | ok g0 =>
      rw [hg] at h
      simp only [except_bind_ok] at h ⊢
      rw [h]
      rfl
  · have h := disRead_plain name ns false hw hm ht
    rw [if_neg (by rintro ⟨q, hq, hc⟩; exact hr q hq hc)] at h
    obtain ⟨g1, e1, s1, b1⟩ := execs_state (disRootGraph_state name ns t) (disCalls_ok ns false t)
    have htok : g1.tokens = [] := by
      rw [b1.tokens, disCalls_tokens]; rfl
    rw [e1] at h
    unfold disRead
    cases hg : disStart name ns with
    | error e => rw [hg] at h; cases h
    | ok g0 =>
      rw [hg] at h
      simp only [except_bind_ok] at h ⊢
      rw [h]
      simp only [except_bind_ok, if_true]
      unfold addPrecedenceRelations
      rw [htok]
      rfl

theorem disRead_content {name ns : String} {tokenize precedence : Bool} {t : Rst} (hw : t.WellFormed) (hm : t.NoMarks) (ht : ∀ s, t ≠ .edu s) {g : DG} (h : disRead name ns tokenize precedence t.disDoc = .ok g) :
    t.Readable ∧ (precedence = true → tokenize = true) ∧ Built (disRootGraph name ns t) (disAllCalls ns tokenize precedence t) g := by
  obtain ⟨_, h2, h3⟩ := c59_reads name ns tokenize precedence t hw hm ht
  have hr : t.Readable := by
    by_contra hr
    rw [h2 hr] at h
    cases h
  have hp : precedence = true → tokenize = true := by
    rintro rfl
    cases tokenize with
    | true => rfl
    | false => rw [h3 hr] at h; cases h
  obtain ⟨g', e, b⟩ := disRead_ok name ns tokenize precedence hw hm ht hr hp
  rw [h] at e
  obtain rfl := Except.ok.inj e
  exact ⟨hr, hp, b⟩

/-- the `add_node` calls -/
theorem mem_node_calls {ns : String} {tokenize precedence : Bool} {t : Rst} {m : NodeId} {ls : List String} {d : Attrs} : Instr.node m ls d ∈ disAllCalls ns tokenize precedence t ↔
    ∃ p ∈ t.visited, Instr.node m ls d ∈ p.calls ns tokenize := by
  unfold disAllCalls disCalls Rst.visited
  rw [List.mem_append]
  constructor
  · rintro (h | h)
    · obtain ⟨c, hc, h⟩ := List.mem_flatMap.1 h
      rcases List.mem_cons.1 h with h | h
      · cases h
      · obtain ⟨p, hp, h⟩ := List.mem_flatMap.1 h
        exact ⟨p, List.mem_flatMap.2 ⟨c, hc, hp⟩, h⟩
    · cases precedence with
      | false => cases h
      | true =>
        obtain ⟨e, _, h⟩ := List.mem_map.1 h
        cases h
  · rintro ⟨p, hp, h⟩
    obtain ⟨c, hc, hp⟩ := List.mem_flatMap.1 hp
    exact .inl (List.mem_flatMap.2 ⟨c, hc, List.mem_cons_of_mem _ (List.mem_flatMap.2 ⟨p, hp, h⟩)⟩)

/-- the `add_node` calls of a part -/
theorem mem_calls {ns : String} {tokenize : Bool} {p : DisPart} {m : NodeId} {ls : List String} {d : Attrs} (h : Instr.node m ls d ∈ p.calls ns tokenize) :
    ls = [ns] ∧ ((m = p.node ns ∧ (∀ s, p.tree = .edu s → d = [(qual ns "text", strVal (joinChars [' '] (splitWs s))), ("label", .atom (.str (qual ns (String.ofList p.name) ++ ": " ++ String.ofList ((joinChars [' '] (splitWs s)).take 20))))]) ∧
      (∀ a ks, p.tree = .rel a ks → d = [(qual ns "rel_type", strVal p.role), (qual ns "node_type", strVal ['s', 'p', 'a', 'n'])])) ∨
      (tokenize = true ∧ (∃ s, p.tree = .edu s) ∧ ∃ w ∈ p.words.zipIdx, m = p.tokenNode ns w.2 ∧ d = [(qual ns "token", strVal w.1), ("label", strVal w.1)])) := by
  unfold DisPart.calls at h
  cases ht : p.tree with
  | edu s =>
    rw [ht] at h
    simp only [List.mem_cons, Instr.node.injEq] at h
    rcases h with ⟨rfl, rfl, rfl⟩ | h
    · exact ⟨rfl, .inl ⟨rfl, fun s' e => by cases e; rfl, fun a ks e => by cases e⟩⟩
    · cases tokenize with
      | false => cases h
      | true =>
        rw [if_pos rfl] at h
        obtain ⟨w, hw, h⟩ := List.mem_flatMap.1 h
        simp only [List.mem_cons, Instr.node.injEq, List.not_mem_nil, or_false, reduceCtorEq, false_or] at h
        obtain ⟨rfl, rfl, rfl⟩ := h
        exact ⟨rfl, .inr ⟨rfl, ⟨s, rfl⟩, w, hw, rfl, rfl⟩⟩
  | rel a ks =>
    rw [ht] at h
    simp only [List.mem_cons, Instr.node.injEq] at h
    rcases h with ⟨rfl, rfl, rfl⟩ | h
    · exact ⟨rfl, .inl ⟨rfl, (fun s' e => by cases e), (fun a ks e => by cases e; rfl)⟩⟩
    · obtain ⟨e, _, h⟩ := List.mem_map.1 h
      cases h

theorem visited_trans (t : Rst) : ∀ p : DisPart, p.tree = t → ∀ q ∈ p.visited, ∀ r ∈ q.visited, r ∈ p.visited := by
  induction t using Rst.ind with
  | h1 s =>
    intro p ht q hq r hr
    rw [DisPart.visited_eq] at hq
    simp [DisPart.parts, ht] at hq
    subst hq
    exact hr
  | h2 a kids ih =>
    intro p ht q hq r hr
    have hq' := hq
    rw [DisPart.visited_eq] at hq'
    rcases List.mem_cons.1 hq' with rfl | hq'
    · exact hr
    · obtain ⟨c, hc, hq'⟩ := List.mem_flatMap.1 hq'
      have hck : (c.nuc, c.tree) ∈ kids := by
        have hc := List.mem_of_mem_tail hc
        simp only [DisPart.parts, ht] at hc
        exact Rst.mem_dirParts hc
      rw [DisPart.visited_eq]
      exact List.mem_cons_of_mem _ (List.mem_flatMap.2 ⟨c, hc, ih _ hck c rfl q hq' r hr⟩)

theorem child_visited {t : Rst} {p c : DisPart} (hp : p ∈ t.visited) (hc : c ∈ p.parts.tail) : c ∈ t.visited := by
  obtain ⟨d, hd, hp⟩ := List.mem_flatMap.1 hp
  refine List.mem_flatMap.2 ⟨d, hd, visited_trans _ d rfl p hp c ?_⟩
  rw [DisPart.visited_eq]
  refine List.mem_cons_of_mem _ (List.mem_flatMap.2 ⟨c, hc, ?_⟩)
  rw [DisPart.visited_eq]
  simp

theorem docPart_visited {t : Rst} {c : DisPart} (hc : c ∈ t.docParts) : c ∈ t.visited := by
  refine List.mem_flatMap.2 ⟨c, hc, ?_⟩
  rw [DisPart.visited_eq]
  simp

theorem mem_graphTokens {ns : String} {t : Rst} {m : NodeId} {w : List Char} : (m, w) ∈ t.graphTokens ns ↔ ∃ p ∈ t.visited, ∃ i, (w, i) ∈ p.words.zipIdx ∧ m = p.tokenNode ns i := by
  unfold Rst.graphTokens
  rw [List.mem_flatMap]
  constructor
  · rintro ⟨p, hp, h⟩
    obtain ⟨⟨w', i⟩, hw, e⟩ := List.mem_map.1 h
    obtain ⟨rfl, rfl⟩ := Prod.mk.inj e
    exact ⟨p, hp, i, hw, rfl⟩
  · rintro ⟨p, hp, i, hw, rfl⟩
    exact ⟨p, hp, List.mem_map.2 ⟨(w, i), hw, rfl⟩⟩

theorem words_edu {p : DisPart} {w : List Char × Nat} (h : w ∈ p.words.zipIdx) : ∃ s, p.tree = .edu s := by
  unfold DisPart.words at h
  cases ht : p.tree with
  | edu s => exact ⟨s, rfl⟩
  | rel a ks => rw [ht] at h; cases h

/-- the ends of the edges are nodes of visited parts, tokens or the root -/
theorem edge_ends_visited {ns : String} {tokenize precedence : Bool} {t : Rst} {u v : NodeId} {ls : List String} {d : Attrs} (hp : precedence = true → tokenize = true) (h : Instr.edge u v ls d ∈ disAllCalls ns tokenize precedence t) (m : NodeId) (hm : m = u ∨ m = v) :
    m = t.docNode ns ∨ (∃ p ∈ t.visited, m = p.node ns) ∨ (tokenize = true ∧ ∃ w ∈ t.graphTokens ns, m = w.1) := by
  unfold disAllCalls at h
  rcases List.mem_append.1 h with h | h
  · have h := (disCalls_spec ns tokenize t).mem_iff.1 ((mem_spec u v ls d).1 h)
    rcases List.mem_append.1 h with h | h
    · obtain ⟨c, hc, e⟩ := List.mem_map.1 h
      simp only [EdgeSpec.mk.injEq] at e
      rcases hm with rfl | rfl
      · exact .inl e.1.symm
      · exact .inr (.inl ⟨c, docPart_visited hc, e.2.1.symm⟩)
    · obtain ⟨p, hpv, h⟩ := List.mem_flatMap.1 h
      unfold DisPart.edges at h
      rcases List.mem_append.1 h with h | h
      · cases tokenize with
        | false => cases h
        | true =>
          obtain ⟨w, hw, e⟩ := List.mem_map.1 h
          simp only [EdgeSpec.mk.injEq] at e
          rcases hm with rfl | rfl
          · exact .inr (.inl ⟨p, hpv, e.1.symm⟩)
          · exact .inr (.inr ⟨rfl, (_, w.1), mem_graphTokens.2 ⟨p, hpv, w.2, hw, rfl⟩, e.2.1.symm⟩)
      · obtain ⟨c, hc, e⟩ := List.mem_map.1 h
        simp only [EdgeSpec.mk.injEq] at e
        rcases hm with rfl | rfl
        · exact .inr (.inl ⟨p, hpv, e.1.symm⟩)
        · exact .inr (.inl ⟨c, child_visited hpv hc, e.2.1.symm⟩)
  · cases precedence with
    | false => cases h
    | true =>
      rw [if_pos rfl] at h
      obtain ⟨e, he, h⟩ := List.mem_map.1 h
      obtain ⟨q, hq, rfl⟩ := List.mem_map.1 he
      simp only [precEdge, Instr.edge.injEq] at h
      have h1 := (List.of_mem_zip hq).1
      have h2 := (List.of_mem_zip hq).2
      rcases hm with rfl | rfl
      · rw [h.1] at h1
        rcases List.mem_cons.1 h1 with h1 | h1
        · exact .inl h1
        · obtain ⟨w, hw, e⟩ := List.mem_map.1 h1
          exact .inr (.inr ⟨hp rfl, w, hw, e.symm⟩)
      · rw [h.2.1] at h2
        obtain ⟨w, hw, e⟩ := List.mem_map.1 h2
        exact .inr (.inr ⟨hp rfl, w, hw, e.symm⟩)

/-- the call that creates the node of a part -/
theorem node_call (ns : String) (tokenize : Bool) (p : DisPart) : ∃ d, Instr.node (p.node ns) [ns] d ∈ p.calls ns tokenize := by
  unfold DisPart.calls
  cases p.tree with
  | edu s => exact ⟨_, List.mem_cons_self ..⟩
  | rel a ks => exact ⟨_, List.mem_cons_self ..⟩

/-- the call that creates the node of a token -/
theorem token_call (ns : String) {p : DisPart} {w : List Char × Nat} (h : w ∈ p.words.zipIdx) : Instr.node (p.tokenNode ns w.2) [ns] [(qual ns "token", strVal w.1), ("label", strVal w.1)] ∈ p.calls ns true := by
  obtain ⟨s, hs⟩ := words_edu h
  unfold DisPart.calls
  rw [hs]
  simp only [if_true]
  exact List.mem_cons_of_mem _ (List.mem_flatMap.2 ⟨w, h, by simp⟩)

theorem disRootGraph_hasNode (name ns : String) (t : Rst) (m : NodeId) : (disRootGraph name ns t).HasNode m ↔ m = t.docNode ns := by
  show m ∈ keys [_] ↔ _
  simp [keys]

/-- **C59 (nodes)**.  The nodes of the graph are the root, the nodes of the visited parts and (with `tokenize`) one node per word of a visited EDU. -/
theorem c59_nodes (name ns : String) (tokenize precedence : Bool) (t : Rst) (hw : t.WellFormed) (hm : t.NoMarks) (ht : ∀ s, t ≠ .edu s) (g : DG) (h : disRead name ns tokenize precedence t.disDoc = .ok g) (m : NodeId) :
    g.HasNode m ↔ m = t.docNode ns ∨ (∃ p ∈ t.visited, m = p.node ns) ∨ (tokenize = true ∧ ∃ w ∈ t.graphTokens ns, m = w.1) := by
  obtain ⟨_, hp, b⟩ := disRead_content hw hm ht h
  rw [b.nodes, disRootGraph_hasNode]
  constructor
  · rintro (h | ⟨i, hi, hmi⟩)
    · exact .inl h
    · cases i with
      | node n ls d =>
        obtain ⟨p, hpv, hi⟩ := mem_node_calls.1 hi
        simp only [Instr.Mentions] at hmi
        subst hmi
        rcases (mem_calls hi).2 with ⟨e, _⟩ | ⟨htk, _, w, hw, e, _⟩
        · exact .inr (.inl ⟨p, hpv, e⟩)
        · exact .inr (.inr ⟨htk, (_, w.1), mem_graphTokens.2 ⟨p, hpv, w.2, hw, rfl⟩, e⟩)
      | edge u v ls d => exact edge_ends_visited hp hi m hmi
      | attr => exact hmi.elim
      | token => exact hmi.elim
      | sentence => exact hmi.elim
  · rintro (h | ⟨p, hpv, rfl⟩ | ⟨htk, w, hw, rfl⟩)
    · exact .inl h
    · obtain ⟨d, hd⟩ := node_call ns tokenize p
      exact .inr ⟨_, mem_node_calls.2 ⟨p, hpv, hd⟩, rfl⟩
    · subst htk
      obtain ⟨p, hpv, i, hi, e⟩ := mem_graphTokens.1 (show (w.1, w.2) ∈ _ from hw)
      exact .inr ⟨_, mem_node_calls.2 ⟨p, hpv, token_call ns hi⟩, e⟩

theorem no_attr_calls {ns : String} {tokenize precedence : Bool} {t : Rst} {n : NodeId} {k : String} {v : Val} (hi : Instr.attr n k v ∈ disAllCalls ns tokenize precedence t) : False := by
  unfold disAllCalls at hi
  rcases List.mem_append.1 hi with hj | hj
  · exact (disCalls_ok ns tokenize t _ hj).1
  · cases precedence with
    | false => cases hj
    | true =>
      obtain ⟨e, he, h⟩ := List.mem_map.1 hj
      cases h

/-- **C59 (root and name)** -/
theorem c59_root (name ns : String) (tokenize precedence : Bool) (t : Rst) (hw : t.WellFormed) (hm : t.NoMarks) (ht : ∀ s, t ≠ .edu s) (g : DG) (h : disRead name ns tokenize precedence t.disDoc = .ok g) :
    g.name = name ∧ g.ns = ns ∧ g.root = t.docNode ns ∧ g.sentences = [] ∧ ∀ k, k ≠ "layers" → g.nodeAttr (t.docNode ns) k = none := by
  obtain ⟨_, hp, b⟩ := disRead_content hw hm ht h
  refine ⟨b.name, b.ns, b.root, ?_, ?_⟩
  · rw [b.sentences]
    show [] ++ _ = _
    rw [List.nil_append, List.flatMap_eq_nil_iff]
    intro i hi
    cases i with
    | sentence x =>
      exfalso
      unfold disAllCalls disCalls at hi
      rcases List.mem_append.1 hi with hi | hi
      · obtain ⟨c, _, hi⟩ := List.mem_flatMap.1 hi
        rcases List.mem_cons.1 hi with hi | hi
        · cases hi
        · obtain ⟨p, _, hi⟩ := List.mem_flatMap.1 hi
          unfold DisPart.calls at hi
          cases hpt : p.tree with
          | edu s =>
            rw [hpt] at hi
            simp only [List.mem_cons, reduceCtorEq, false_or] at hi
            cases tokenize with
            | false => cases hi
            | true =>
              obtain ⟨w, _, hi⟩ := List.mem_flatMap.1 hi
              simp at hi
          | rel a ks =>
            rw [hpt] at hi
            simp only [List.mem_cons, reduceCtorEq, false_or] at hi
            obtain ⟨e, _, hi⟩ := List.mem_map.1 hi
            cases hi
      · cases precedence with
        | false => cases hi
        | true =>
          obtain ⟨e, _, hi⟩ := List.mem_map.1 hi
          cases hi
    | node => rfl
    | edge => rfl
    | attr => rfl
    | token => rfl
  · intro k hk
    rw [b.attr _ _ hk, lastWrite_none]
    · show ((find (disRootGraph name ns t).nodes _).bind _) = none
      rw [disRootGraph_attrs, if_pos rfl]
      simp [find, Ne.symm hk]
    · intro i hi
      cases i with
      | node n ls d =>
        simp only [Instr.write]
        rw [if_neg]
        rintro rfl
        obtain ⟨p, hpv, hi⟩ := mem_node_calls.1 hi
        rcases (mem_calls hi).2 with ⟨e, _⟩ | ⟨_, _, w, _, e, _⟩
        · exact Rst.docNode_ne ht hw hpv e.symm
        · rw [Rst.docNode_eq ht] at e
          exact DisPart.token_ne e.symm
      | attr n k v => exact (no_attr_calls hi).elim
      | edge => rfl
      | token => rfl
      | sentence => rfl

/-- the attributes of a node are those of its only `add_node` call -/
theorem attr_of_call {name ns : String} {tokenize precedence : Bool} {t : Rst} {g : DG} (b : Built (disRootGraph name ns t) (disAllCalls ns tokenize precedence t) g) {n : NodeId} {ls : List String} {d : Attrs} (hd : Instr.node n ls d ∈ disAllCalls ns tokenize precedence t)
    (hn : n ≠ t.docNode ns) (hu : ∀ ls' d', Instr.node n ls' d' ∈ disAllCalls ns tokenize precedence t → d' = d) (k : String) (hk : k ≠ "layers") : g.nodeAttr n k = find d k := by
  rw [b.attr _ _ hk]
  have hroot : (disRootGraph name ns t).nodeAttr n k = none := by
    show ((find (disRootGraph name ns t).nodes _).bind _) = none
    rw [disRootGraph_attrs, if_neg (Ne.symm hn)]
    rfl
  rw [hroot, Option.or_none]
  have hw : ∀ i ∈ disAllCalls ns tokenize precedence t, ∀ v, i.write n k = some v → find d k = some v := by
    intro i hi v hv
    cases i with
    | node n' ls' d' =>
      simp only [Instr.write] at hv
      split at hv
      · rename_i e
        subst e
        rw [← hu ls' d' hi]
        exact hv
      · cases hv
    | attr => exact (no_attr_calls hi).elim
    | edge => cases hv
    | token => cases hv
    | sentence => cases hv
  cases hf : find d k with
  | some v => exact lastWrite_unique ⟨_, hd, by simp [Instr.write, hf]⟩ (fun i hi v' hv => by have := hw i hi v' hv; rw [hf] at this; exact (Option.some.inj this).symm)
  | none =>
    apply lastWrite_none
    intro i hi
    cases hv : i.write n k with
    | none => rfl
    | some v => have := hw i hi v hv; rw [hf] at this; cases this

theorem part_attr {name ns : String} {tokenize precedence : Bool} {t : Rst} (hw : t.WellFormed) (ht : ∀ s, t ≠ .edu s) {g : DG} (b : Built (disRootGraph name ns t) (disAllCalls ns tokenize precedence t) g) {p : DisPart} (hpv : p ∈ t.visited) {d : Attrs}
    (hd : Instr.node (p.node ns) [ns] d ∈ p.calls ns tokenize) (k : String) (hk : k ≠ "layers") : g.nodeAttr (p.node ns) k = find d k := by
  refine attr_of_call b (mem_node_calls.2 ⟨p, hpv, hd⟩) (fun e => Rst.docNode_ne ht hw hpv e) ?_ k hk
  intro ls' d' h'
  obtain ⟨q, hqv, h'⟩ := mem_node_calls.1 h'
  rcases (mem_calls h').2 with ⟨e, h1, h2⟩ | ⟨_, _, w, _, e, _⟩
  · obtain rfl := Rst.visited_unique hw hpv hqv e
    rcases (mem_calls hd).2 with ⟨_, h3, h4⟩ | ⟨_, _, w, _, e, _⟩
    · cases hpt : p.tree with
      | edu s => rw [h1 s hpt, h3 s hpt]
      | rel a ks => rw [h2 a ks hpt, h4 a ks hpt]
    · exact (DisPart.token_ne e.symm).elim
  · exact (DisPart.token_ne e.symm).elim

theorem token_attr_dis {name ns : String} {precedence : Bool} {t : Rst} (hw : t.WellFormed) (ht : ∀ s, t ≠ .edu s) {g : DG} (b : Built (disRootGraph name ns t) (disAllCalls ns true precedence t) g) {w : NodeId × List Char} (h : w ∈ t.graphTokens ns) (k : String) (hk : k ≠ "layers") :
    g.nodeAttr w.1 k = find [(qual ns "token", strVal w.2), ("label", strVal w.2)] k := by
  obtain ⟨m, w⟩ := w
  obtain ⟨p, hpv, i, hi, rfl⟩ := mem_graphTokens.1 h
  obtain ⟨s, hs⟩ := words_edu hi
  refine attr_of_call b (mem_node_calls.2 ⟨p, hpv, token_call ns hi⟩) (fun e => by rw [Rst.docNode_eq ht] at e; exact DisPart.token_ne e) ?_ k hk
  intro ls' d' h'
  obtain ⟨q, hqv, h'⟩ := mem_node_calls.1 h'
  rcases (mem_calls h').2 with ⟨e, _⟩ | ⟨_, ⟨s', hs'⟩, ⟨w', j⟩, hw', e, rfl⟩
  · exact (DisPart.token_ne e).elim
  · obtain ⟨rfl, rfl⟩ := Rst.token_unique hw hpv hqv hs hs' e
    have h1 := List.mem_zipIdx_iff_getElem?.1 hi
    have h2 := List.mem_zipIdx_iff_getElem?.1 hw'
    rw [h1] at h2
    obtain rfl := Option.some.inj h2
    rfl

/-- **C59 (EDUs)**.  The node of a visited EDU carries its words, separated by blanks, as text, and a label; it does not carry the relation. -/
theorem c59_edu (name ns : String) (tokenize precedence : Bool) (t : Rst) (hw : t.WellFormed) (hm : t.NoMarks) (ht : ∀ s, t ≠ .edu s) (g : DG) (h : disRead name ns tokenize precedence t.disDoc = .ok g) (p : DisPart) (hp : p ∈ t.visited) (s : List Char) (hs : p.tree = .edu s) :
    g.nodeAttr (p.node ns) (qual ns "text") = some (strVal (joinChars [' '] (splitWs s))) ∧
    g.nodeAttr (p.node ns) "label" = some (.atom (.str (ns ++ ":" ++ String.ofList (decimal p.first) ++ ": " ++ String.ofList ((joinChars [' '] (splitWs s)).take 20)))) ∧
    g.nodeAttr (p.node ns) (qual ns "rel_type") = none ∧ g.nodeAttr (p.node ns) (qual ns "node_type") = none := by
  obtain ⟨_, _, b⟩ := disRead_content hw hm ht h
  obtain ⟨d, hd⟩ := node_call ns tokenize p
  have hd' := hd
  rcases (mem_calls hd).2 with ⟨_, h1, _⟩ | ⟨_, _, w, _, e, _⟩
  · obtain rfl := h1 s hs
    have q : ∀ s, qual ns s ≠ "label" := fun s h => qual_ne_plain (by decide) h
    have q1 : qual ns "text" ≠ qual ns "rel_type" := fun h => absurd (qual_inj h) (by decide)
    have q2 : qual ns "text" ≠ qual ns "node_type" := fun h => absurd (qual_inj h) (by decide)
    rw [part_attr hw ht b hp hd' _ (qual_layers ns _), part_attr hw ht b hp hd' _ (by decide), part_attr hw ht b hp hd' _ (qual_layers ns _), part_attr hw ht b hp hd' _ (qual_layers ns _)]
    have hname : p.name = decimal p.first := by simp [DisPart.name, hs]
    refine ⟨by simp [find], ?_, by simp [find, q1, Ne.symm (q _)], by simp [find, q2, Ne.symm (q _)]⟩
    simp only [find, if_neg (q _), if_true, hname]
    simp [qual, String.append_assoc]
  · exact (DisPart.token_ne e.symm).elim

/-- **C59 (relations)**.  The node of a visited relation carries the name under which it is attached to its parent, and the node type. -/
theorem c59_span (name ns : String) (tokenize precedence : Bool) (t : Rst) (hw : t.WellFormed) (hm : t.NoMarks) (ht : ∀ s, t ≠ .edu s) (g : DG) (h : disRead name ns tokenize precedence t.disDoc = .ok g) (p : DisPart) (hp : p ∈ t.visited) (a : List Char) (ks : List (Nuc × Rst)) (hs : p.tree = .rel a ks) :
    g.nodeAttr (p.node ns) (qual ns "rel_type") = some (strVal p.role) ∧ g.nodeAttr (p.node ns) (qual ns "node_type") = some (.atom (.str "span")) ∧ g.nodeAttr (p.node ns) (qual ns "text") = none := by
  obtain ⟨_, _, b⟩ := disRead_content hw hm ht h
  obtain ⟨d, hd⟩ := node_call ns tokenize p
  have hd' := hd
  rcases (mem_calls hd).2 with ⟨_, _, h1⟩ | ⟨_, _, w, _, e, _⟩
  · obtain rfl := h1 a ks hs
    have q0 : qual ns "rel_type" ≠ qual ns "node_type" := fun h => absurd (qual_inj h) (by decide)
    have q1 : qual ns "rel_type" ≠ qual ns "text" := fun h => absurd (qual_inj h) (by decide)
    have q2 : qual ns "node_type" ≠ qual ns "text" := fun h => absurd (qual_inj h) (by decide)
    rw [part_attr hw ht b hp hd' _ (qual_layers ns _), part_attr hw ht b hp hd' _ (qual_layers ns _), part_attr hw ht b hp hd' _ (qual_layers ns _)]
    refine ⟨by simp [find], ?_, by simp [find, q1, q2]⟩
    simp only [find, if_neg q0, if_true]
    rfl
  · exact (DisPart.token_ne e.symm).elim

/-- **C59 (edges)**.  The edges of the graph are exactly: a dominance edge from the root to each part of the topmost relation; from the node of a visited relation one edge to each of its parts but the first one; from the node of a visited EDU one edge to each of its words (with `tokenize`); and the precedence edges. -/
theorem c59_edges (name ns : String) (tokenize precedence : Bool) (t : Rst) (hw : t.WellFormed) (hm : t.NoMarks) (ht : ∀ s, t ≠ .edu s) (g : DG) (h : disRead name ns tokenize precedence t.disDoc = .ok g) :
    EdgesAre g (t.graphEdges ns tokenize ++ if precedence then precEdges ns (t.docNode ns) ((t.graphTokens ns).map Prod.fst) else []) := by
  obtain ⟨_, _, b⟩ := disRead_content hw hm ht h
  have h0 : EdgesAre (disRootGraph name ns t) [] := by
    refine ⟨?_, by simp, ?_⟩
    · rintro u v a ⟨k, h⟩
      unfold edgeAttrs at h
      rw [disRootGraph_kd] at h
      cases h
    · intro u v
      unfold edgeCount
      rw [disRootGraph_kd]
      rfl
  have h1 := EdgesAre.built h0 b (es' := (disAllCalls ns tokenize precedence t).filterMap Instr.spec) (fun u v ls at' => mem_spec u v ls at') (fun u v => count_spec _ u v)
  rw [List.nil_append] at h1
  refine EdgesAre.perm h1 ?_
  unfold disAllCalls
  rw [List.filterMap_append]
  cases precedence with
  | false => simpa using disCalls_spec ns tokenize t
  | true =>
    rw [if_pos rfl, if_pos rfl, edgeCalls_spec]
    exact List.Perm.append_right _ (disCalls_spec ns tokenize t)

/-- **C59 (layers)**.  Every node is in the layer of the namespace and in no other layer. -/
theorem c59_layers (name ns : String) (tokenize precedence : Bool) (t : Rst) (hw : t.WellFormed) (hm : t.NoMarks) (ht : ∀ s, t ≠ .edu s) (g : DG) (h : disRead name ns tokenize precedence t.disDoc = .ok g) (m : NodeId) (hn : g.HasNode m) (l : Atom) :
    g.NodeLayer m l ↔ l = .str ns := by
  have hn' := (c59_nodes name ns tokenize precedence t hw hm ht g h m).1 hn
  obtain ⟨_, _, b⟩ := disRead_content hw hm ht h
  rw [b.layer]
  have hroot : ∀ m l, (disRootGraph name ns t).NodeLayer m l ↔ m = t.docNode ns ∧ l = .str ns := by
    intro m l
    rw [nodeLayer_iff]
    have e : (disRootGraph name ns t).nodeAttr m "layers" = (find (disRootGraph name ns t).nodes m).bind (find · "layers") := rfl
    rw [e, disRootGraph_attrs]
    by_cases hm : t.docNode ns = m
    · subst hm
      simp [find]
    · simp [hm, Ne.symm hm]
  constructor
  · rintro (h | ⟨i, hi, hg⟩ | ⟨_, _, h⟩)
    · exact ((hroot m l).1 h).2
    · cases i with
      | node n ls d =>
        obtain ⟨p, _, hi⟩ := mem_node_calls.1 hi
        obtain ⟨rfl, _⟩ := mem_calls hi
        simpa using hg.2
      | edge => exact hg.elim
      | attr => exact hg.elim
      | token => exact hg.elim
      | sentence => exact hg.elim
    · exact h
  · rintro rfl
    rcases hn' with rfl | ⟨p, hp, rfl⟩ | ⟨rfl, w, hw, rfl⟩
    · exact .inl ((hroot _ _).2 ⟨rfl, rfl⟩)
    · obtain ⟨d, hd⟩ := node_call ns tokenize p
      exact .inr (.inl ⟨_, mem_node_calls.2 ⟨p, hp, hd⟩, rfl, by simp⟩)
    · obtain ⟨p, hp, i, hi, e⟩ := mem_graphTokens.1 (show (w.1, w.2) ∈ _ from hw)
      exact .inr (.inl ⟨_, mem_node_calls.2 ⟨p, hp, token_call ns hi⟩, e, by simp⟩)

end DG
end Dg
