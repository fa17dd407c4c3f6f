import Verif.Lemmas.AddsEdges

/-! C25: add_precedence_relations adds exactly the token chain. -/

namespace Dg
open Dict
namespace DG

/-- attributes an edge created by `add_precedence_relations` in a graph with namespace `ns` must have -/
def PrecedenceAttrs (ns : String) (a : Attrs) : Prop :=
  find a "edge_type" = some (.atom (.str "precedes")) ∧
  (∀ l, AttrsLayer a l ↔ l = .str ns ∨ l = .str (ns ++ ":precedence")) ∧
  ∀ x, x ≠ "edge_type" → x ≠ "layers" → find a x = none

theorem addPrecedenceEdge_spec {g : DG} (hi : Inv g) (u v : NodeId) :
    ∃ g' k a, g.addPrecedenceEdge u v = .ok g' ∧ Inv g' ∧ AddsEdges g g' [(u, v, k, a)] ∧ PrecedenceAttrs g.ns a := by
  have hl : LayersArg g.ns g.precedenceLayers [.str g.ns, .str (g.ns ++ ":precedence")] := by
    apply LayersArg.given
    · simp
    · simp
  have hls := (checkLayers_iff g _ _).2 hl
  have nda : (keys [("edge_type", Val.atom (.str precedenceRelation))]).Nodup := by simp [keys]
  obtain ⟨g', hg'⟩ := addEdge_isOk (u := u) (v := v) (key := none) (ad := .none)
    (attr := [("edge_type", Val.atom (.str precedenceRelation))]) hi.wf hls (by simp)
    (fun u v k a h => by obtain ⟨xs, hx, _⟩ := hi.edges u v k a h; exact ⟨xs, hx⟩)
  have hi' := inv_addEdge hi nda (by trivial) hg'
  obtain ⟨ls, k, a, hls', hk, _, _, hkd, hattr, ⟨L, hL, _, hmem⟩, hn⟩ := addEdge_view hi nda (by trivial) hg'
  have hfresh : ¬ g.HasEdge u v k := by rw [hk]; exact not_hasEdge_freshKey u v
  have hnone : g.edgeAttrs u v k = none := by
    unfold HasEdge at hfresh; cases he : g.edgeAttrs u v k <;> simp_all
  refine ⟨g', k, a, hg', hi', addsEdges_single (setsEdge_of_view hkd hn (sameMeta_addEdge hi nda (by trivial) hg')) hfresh, ?_, ?_, ?_⟩
  · rw [hattr _ (by decide)]; simp [precedenceRelation]
  · intro l
    unfold AttrsLayer
    rw [hL]
    have : ¬ g.EdgeLayer u v k l := by unfold EdgeLayer; simp [hnone]
    rw [hls] at hls'
    injection hls' with hls'
    subst hls'
    simp [hmem l, this]
  · intro x h1 h2
    rw [hattr x h2]
    simp only [find_cons, find_nil, argFind, edgeAttr, hnone, Option.bind_none, Option.or_none]
    rw [if_neg (fun h => h1 (Eq.symm h))]

/-- consecutive pairs -/
def pairs : List NodeId → List (NodeId × NodeId)
  | a :: b :: rest => (a, b) :: pairs (b :: rest)
  | _ => []

theorem precedenceLoop_spec (ts : List NodeId) : ∀ {g : DG}, Inv g →
    ∃ g' new, addPrecedenceLoop g ts = (g', none) ∧ AddsEdges g g' new ∧
      new.map (fun e => (e.1, e.2.1)) = pairs ts ∧ ∀ e ∈ new, PrecedenceAttrs g.ns e.2.2.2 := by
  induction ts with
  | nil => intro g hi; exact ⟨g, [], rfl, addsEdges_nil g, rfl, by simp⟩
  | cons a rest ih =>
    intro g hi
    cases rest with
    | nil => exact ⟨g, [], rfl, addsEdges_nil g, rfl, by simp⟩
    | cons b rest =>
      obtain ⟨g1, k, at1, h1, hi1, had1, hp1⟩ := addPrecedenceEdge_spec hi a b
      obtain ⟨g2, new, h2, had2, hpairs, hp2⟩ := ih hi1
      refine ⟨g2, (a, b, k, at1) :: new, ?_, addsEdges_cons had1 had2, ?_, ?_⟩
      · simp [addPrecedenceLoop, h1, h2]
      · simp [pairs, hpairs]
      · intro e he
        rcases List.mem_cons.1 he with rfl | he
        · exact hp1
        · rw [← had1.rest.2.1]; exact hp2 e he

/-- **C25**.  In every reachable graph with at least two tokens, `add_precedence_relations()` succeeds and adds exactly one new
precedence edge root → first token and one from each token to its successor (in this order), in the graph's layers; nothing
else changes. -/
theorem c25_add_precedence_relations (g : DG) (hr : Reachable g) (h2 : 2 ≤ g.tokens.length) :
    ∃ g' new, g.step .addPrecedence = (g', none) ∧ AddsEdges g g' new ∧
      new.map (fun e => (e.1, e.2.1)) = (g.root :: g.tokens).zip g.tokens ∧
      ∀ e ∈ new, PrecedenceAttrs g.ns e.2.2.2 := by
  have hzip : ∀ (l : List NodeId) (a : NodeId), pairs (a :: l) = (a :: l).zip l := by
    intro l
    induction l with
    | nil => intro a; rfl
    | cons b l ih => intro a; simp [pairs, ih]
  match ht : g.tokens with
  | [] => rw [ht] at h2; simp at h2
  | [_] => rw [ht] at h2; simp at h2
  | t0 :: t1 :: rest =>
    obtain ⟨g1, k, at1, h1, hi1, had1, hp1⟩ := addPrecedenceEdge_spec hr.inv g.root t0
    obtain ⟨g2, new, h2, had2, hpairs, hp2⟩ := precedenceLoop_spec (t0 :: t1 :: rest) hi1
    refine ⟨g2, (g.root, t0, k, at1) :: new, ?_, addsEdges_cons had1 had2, ?_, ?_⟩
    · simp [step, addPrecedenceRelations, ht, h1, h2]
    · rw [List.map_cons, hpairs, hzip]; simp
    · intro e he
      rcases List.mem_cons.1 he with rfl | he
      · exact hp1
      · rw [← had1.rest.2.1]; exact hp2 e he

/-- A document with fewer than two tokens is refused (AssertionError) and left unchanged. -/
theorem c25_short_documents_refused (g : DG) (h : g.tokens.length < 2) : g.step .addPrecedence = (g, some .assertion) := by
  match ht : g.tokens with
  | [] => simp [step, addPrecedenceRelations, ht]
  | [_] => simp [step, addPrecedenceRelations, ht]
  | _ :: _ :: _ => rw [ht] at h; simp at h; omega

example :
    let g := (init "" "dg" (some (.str "r"))).run
      [.addNode (.str "t1") (.atom .none) .none [], .addNode (.str "t2") (.atom .none) .none [], .addNode (.str "t3") (.atom .none) .none [],
       .setTokens [.str "t1", .str "t2", .str "t3"]]
    Reachable g ∧ 2 ≤ g.tokens.length ∧ (g.step .addPrecedence).1.edges.length = 3 := by
  refine ⟨⟨"", "dg", some (.str "r"), _, ?_, rfl⟩, by decide, by decide⟩
  simp [Op.Valid, AttrArg.Valid, keys]

end DG
end Dg
