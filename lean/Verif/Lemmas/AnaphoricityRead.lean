import Verif.Lemmas.Anaphoricity

/-! The calls made by the anaphoricity reader. -/

namespace Dg
open Dict
namespace DG

/-- layers and attributes of the node of a word -/
def anaphArgs (ns : String) (w : List Char) : List String × Attrs :=
  match anaphSearch w with
  | some (t, x, u) =>
    match annotationType x with
    | .ok ty => ([ns, qual ns "token", qual ns "annotated"], [(qual ns "annotation", .atom (.str ty)), (qual ns "certainty", .atom (.str (if u then "0.5" else "1.0"))), (qual ns "token", strVal t), ("label", strVal (t ++ '_' :: ty.toList))])
    | .error _ => ([], [])
  | none => ([ns, qual ns "token"], [(qual ns "token", strVal w), ("label", strVal w)])

theorem anaphArgs_spec (ns : String) (w : List Char) : AnaphToken ns w (anaphArgs ns w).2 (anaphArgs ns w).1 := by
  unfold anaphArgs
  cases h : anaphSearch w with
  | none => exact .plain (anaphSearch_none h)
  | some m =>
    obtain ⟨t, x, u⟩ := m
    obtain ⟨ty, hx, ha⟩ := anaphSearch_some h
    simp only
    rw [annotationType_iff.2 hx]
    exact .annotated ha

/-- the node of a word is determined -/
theorem AnaphToken.args {ns : String} {w : List Char} {at' : Attrs} {ls : List String} (h : AnaphToken ns w at' ls) : ls = (anaphArgs ns w).1 ∧ at' = (anaphArgs ns w).2 := by
  unfold anaphArgs
  cases h with
  | plain h => rw [unannotated_none h]; exact ⟨rfl, rfl⟩
  | annotated h =>
    obtain ⟨x, hx, hl⟩ := annotated_some h
    rw [hx]
    simp only
    rw [annotationType_iff.2 hl]
    exact ⟨rfl, rfl⟩

theorem anaphToken_ok {ns : String} {w : List Char} {at' : Attrs} {ls : List String} (h : AnaphToken ns w at' ls) : (keys at').Nodup ∧ ns ∈ ls ∧ qual ns "token" ∈ ls := by
  cases h with
  | plain =>
    refine ⟨?_, by simp, by simp⟩
    simp only [keys, List.map_cons, List.map_nil, List.nodup_cons, List.mem_cons, List.not_mem_nil, or_false, not_false_eq_true, List.nodup_nil, and_true]
    exact qual_ne_plain (by decide)
  | annotated =>
    refine ⟨?_, by simp, by simp⟩
    simp only [keys, List.map_cons, List.map_nil, List.nodup_cons, List.mem_cons, List.not_mem_nil, or_false, not_false_eq_true, List.nodup_nil, and_true, not_or]
    refine ⟨⟨fun h => ?_, fun h => ?_, qual_ne_plain (by decide)⟩, ⟨fun h => ?_, qual_ne_plain (by decide)⟩, qual_ne_plain (by decide)⟩ <;> exact absurd (qual_inj h) (by decide)

/-- the calls for a word -/
def anaphTokenScript (ns : String) (connected : Bool) (p : List Char × Nat) : List Instr :=
  [.node (.int p.2) (anaphArgs ns p.1).1 (anaphArgs ns p.1).2] ++ (if connected then [.edge (.str (ns ++ ":root_node")) (.int p.2) [ns, qual ns "token"] []] else []) ++ [.token (.int p.2)]

/-- the calls for a text -/
def anaphScript (ns : String) (connected : Bool) (ws : List (List Char)) : List Instr :=
  .node (.str (ns ++ ":root_node")) [ns] [] :: ws.zipIdx.flatMap (anaphTokenScript ns connected)

theorem anaphTokenNode_eq {g : DG} {ns : String} (h : g.ns = ns) (w : List Char) (n : NodeId) : g.anaphTokenNode w n = (Instr.node n (anaphArgs ns w).1 (anaphArgs ns w).2).exec g := by
  subst h
  unfold anaphTokenNode anaphArgs
  cases hs : anaphSearch w with
  | none => exact addNode_dict g n [g.ns, qual g.ns "token"] _
  | some m =>
    obtain ⟨t, x, u⟩ := m
    obtain ⟨ty, hx, ha⟩ := anaphSearch_some hs
    simp only
    rw [annotationType_iff.2 hx]
    exact addNode_dict g n [g.ns, qual g.ns "token", qual g.ns "annotated"] _

theorem anaphAddToken_eq {g : DG} {ns : String} (h : g.ns = ns) (hr : g.root = .str (ns ++ ":root_node")) (connected : Bool) (w : List Char) (n : NodeId) :
    g.anaphAddToken connected w n = execs g ([.node n (anaphArgs ns w).1 (anaphArgs ns w).2] ++ (if connected then [.edge (.str (ns ++ ":root_node")) n [ns, qual ns "token"] []] else [])) := by
  unfold anaphAddToken
  rw [anaphTokenNode_eq h, List.cons_append, List.nil_append, execs_cons]
  cases h1 : (Instr.node n (anaphArgs ns w).1 (anaphArgs ns w).2).exec g with
  | error _ => rfl
  | ok g1 =>
    have m := exec_ns_root h1
    cases connected with
    | false => rfl
    | true =>
      show g1.addEdge g1.root n (.set [.str g1.ns, .str (qual g1.ns "token")]) none .none [] = execs g1 [.edge (.str (ns ++ ":root_node")) n [ns, qual ns "token"] []]
      rw [execs_one, m.1, m.2, h, hr]
      rfl

theorem anaphAddTokens_eq {ns : String} (connected : Bool) : ∀ (ws : List (List Char)) (i : Nat) {g : DG}, g.ns = ns → g.root = .str (ns ++ ":root_node") →
    anaphAddTokens connected i ws g = execs g ((ws.zipIdx i).flatMap (anaphTokenScript ns connected))
  | [], _, _, _, _ => rfl
  | w :: ws, i, g, h, hr => by
    rw [anaphAddTokens, List.zipIdx_cons, List.flatMap_cons, execs_append]
    show _ = (execs g ([.node (.int i) (anaphArgs ns w).1 (anaphArgs ns w).2] ++ (if connected then [.edge (.str (ns ++ ":root_node")) (.int i) [ns, qual ns "token"] []] else []) ++ [.token (.int i)]) >>= _)
    rw [execs_append, ← anaphAddToken_eq h hr]
    cases h1 : g.anaphAddToken connected w (.int i) with
    | error _ => rfl
    | ok g1 =>
      have m := execs_ns_root _ ((anaphAddToken_eq h hr connected w (.int i)).symm.trans h1)
      exact anaphAddTokens_eq connected ws (i + 1) (g := { g1 with tokens := g1.tokens ++ [.int i] }) (m.1.trans h) (m.2.trans hr)

theorem inv_anaphStart (name ns : String) : Inv (anaphStart name ns) ∧ NodesLayered False (anaphStart name ns) := by
  have h := inv_init "" "anaphoricity" none
  have h2 := nodesLayered_init False "" "anaphoricity" none
  exact ⟨⟨⟨h.wf.nodesNodup, h.wf.adjKeys, h.wf.nbrsNodup, h.wf.kdNodup, h.wf.kdNonempty, h.wf.target⟩, ⟨h.attrs.1, h.attrs.2⟩, h.edges⟩, h2⟩

theorem anaphScript_ok {ns : String} {connected : Bool} {ws : List (List Char)} {has : NodeId → Prop} : ScriptOk has (anaphScript ns connected ws) := by
  apply scriptOk_free
  intro i hi
  rcases List.mem_cons.1 hi with rfl | hi
  · exact ⟨by simp, by simp [keys]⟩
  · obtain ⟨⟨w, j⟩, _, hi⟩ := List.mem_flatMap.1 hi
    unfold anaphTokenScript at hi
    simp only [List.mem_append, List.mem_singleton] at hi
    rcases hi with (rfl | hi) | rfl
    · obtain ⟨h1, h2, _⟩ := anaphToken_ok (anaphArgs_spec ns w)
      exact ⟨List.ne_nil_of_mem h2, h1⟩
    · cases connected
      · simp at hi
      · simp at hi; subst hi; exact ⟨by simp, by simp [keys]⟩
    · trivial

theorem anaphRead_built (name ns : String) (connected : Bool) (text : List Char) :
    ∃ g', anaphRead name ns connected text = .ok g' ∧ Built (anaphStart name ns) (anaphScript ns connected (splitBy isAsciiSpace text)) g' := by
  obtain ⟨g', he, hb⟩ := execs_built (anaphScript ns connected (splitBy isAsciiSpace text)) (inv_anaphStart name ns).1 (inv_anaphStart name ns).2 anaphScript_ok
  refine ⟨g', ?_, hb⟩
  rw [← he]
  unfold anaphRead anaphScript
  rw [execs_cons, readLines_split (by decide)]
  show (((Instr.node (.str (ns ++ ":root_node")) [ns] []).exec (anaphStart name ns)) >>= _) = _
  cases h1 : (Instr.node (.str (ns ++ ":root_node")) [ns] []).exec (anaphStart name ns) with
  | error _ => rfl
  | ok g1 =>
    have m := exec_ns_root h1
    exact anaphAddTokens_eq connected _ 0 m.1 m.2

theorem mem_anaphScript {ns : String} {connected : Bool} {ws : List (List Char)} {i : Instr} : i ∈ anaphScript ns connected ws ↔
    i = .node (.str (ns ++ ":root_node")) [ns] [] ∨ ∃ (w : List Char) (j : Nat), ws[j]? = some w ∧ (i = .node (.int j) (anaphArgs ns w).1 (anaphArgs ns w).2 ∨ (connected = true ∧ i = .edge (.str (ns ++ ":root_node")) (.int j) [ns, qual ns "token"] []) ∨ i = .token (.int j)) := by
  unfold anaphScript
  rw [List.mem_cons, List.mem_flatMap]
  refine or_congr Iff.rfl ?_
  constructor
  · rintro ⟨⟨w, j⟩, hm, hi⟩
    rw [List.mem_zipIdx_iff_getElem?] at hm
    refine ⟨w, j, hm, ?_⟩
    unfold anaphTokenScript at hi
    cases connected <;> simp_all
  · rintro ⟨w, j, hm, hi⟩
    refine ⟨(w, j), List.mem_zipIdx_iff_getElem?.2 hm, ?_⟩
    unfold anaphTokenScript
    cases connected <;> simp_all

theorem anaphScript_tokens (ns : String) (connected : Bool) (ws : List (List Char)) : (anaphScript ns connected ws).flatMap Instr.newTokens = (List.range ws.length).map (fun (i : Nat) => NodeId.int i) := by
  unfold anaphScript
  rw [List.flatMap_cons, List.flatMap_assoc]
  have : ∀ p : List Char × Nat, (anaphTokenScript ns connected p).flatMap Instr.newTokens = [NodeId.int p.2] := by
    intro p; unfold anaphTokenScript; cases connected <;> rfl
  simp only [this]
  show [] ++ _ = _
  rw [List.nil_append, ← List.zipIdx_map_snd 0 ws |>.trans List.range_eq_range'.symm, List.map_map]
  induction ws.zipIdx with
  | nil => rfl
  | cons x xs ih => rw [List.flatMap_cons, ih]; rfl

theorem anaphScript_sentences (ns : String) (connected : Bool) (ws : List (List Char)) : (anaphScript ns connected ws).flatMap Instr.newSentences = [] := by
  rw [List.flatMap_eq_nil_iff]
  intro i hi
  rcases mem_anaphScript.1 hi with rfl | ⟨w, j, _, rfl | ⟨_, rfl⟩ | rfl⟩ <;> rfl

end DG
end Dg
