import Verif.Lemmas.Ptb
import Verif.Lemmas.CondCalls
import Verif.Props.C59

/-! The graph read from a Penn Treebank file. -/

namespace Dg
open Dict

theorem ptbUnescape_none (l : List Char) : ptbUnescape l = ptbNone ↔ l = ['-', 'N', 'O', 'N', 'E', '-'] := by
  unfold ptbUnescape ptbNone
  constructor
  · intro h
    split at h
    · exact absurd h (by decide)
    split at h
    · exact absurd h (by decide)
    split at h
    · exact absurd h (by decide)
    split at h
    · exact absurd h (by decide)
    split at h
    · exact absurd h (by decide)
    split at h
    · exact absurd h (by decide)
    exact h
  · rintro rfl
    decide

namespace DG

/-- the calls for what a node is: its label, and the word -/
def ptbBody (ns : String) (n : Nat) (t : Syn) : List Instr :=
  .attr (.int n) "label" (strVal t.label) ::
    match t with
    | .tok pos w => [.attr (.int n) "label" (strVal (ptbUnescape w)), .attr (.int n) (qual ns "token") (strVal (ptbUnescape w)), .attr (.int n) (qual ns "pos") (strVal pos), .token (.int n)]
    | .phrase _ _ => []

/-- the number of direct parts in nltk's tree -/
def ptbLen : Syn → Nat
  | .tok _ _ => 1
  | .phrase _ ks => ks.length

/-- the calls for a node and the edge to it -/
def ptbEntry (ns : String) (r : PtbRow) : List Instr :=
  if r.parent = 0 then [.sentence (.int r.id), .edge (.int 0) (.int r.id) [ns] [("edge_type", .atom (.str "dominates"))]]
  else
    [if 1 < ptbLen r.tree then .node (.int r.id) [ns, qual ns "syntax"] [("label", strVal (ptbUnescape r.tree.label)), (qual ns "cat", strVal (ptbUnescape r.tree.label))]
     else .node (.int r.id) [ns] [("label", strVal (ptbUnescape r.tree.label))],
     .edge (.int r.parent) (.int r.id) [ns] [("edge_type", .atom (.str "dominates"))]]

/-- the calls for a row -/
def ptbRowCalls (ns : String) (r : PtbRow) : List Instr := ptbEntry ns r ++ ptbBody ns r.id r.tree

theorem updateNode_three (g : DG) (n : NodeId) (k1 k2 k3 : String) (v1 v2 v3 : Val) : g.updateNode n [(k1, v1), (k2, v2), (k3, v3)] = execs g [.attr n k1 v1, .attr n k2 v2, .attr n k3 v3] := by
  simp only [execs_cons, execs_nil, Instr.exec, updateNode, setAttr]
  cases h : find g.nodes n with
  | none => rfl
  | some a =>
    simp only [bind, Except.bind, find_put_self, put_put]
    rfl

/-- the word of a node that has its label -/
theorem ptbAddToken_eq {g : DG} {ns : String} (hns : g.ns = ns) (n : Nat) (pos w : List Char) :
    ((Instr.attr (.int n) "label" (strVal pos)).exec g >>= ptbAddToken (some n) (ptbUnescape w)) = execs g (ptbBody ns n (.tok pos w)) := by
  unfold ptbBody
  rw [execs_cons]
  simp only [Syn.label]
  cases h : (Instr.attr (.int n) "label" (strVal pos)).exec g with
  | error e => rfl
  | ok g1 =>
    simp only [except_bind_ok]
    have hns1 : g1.ns = ns := (exec_ns_root h).1.trans hns
    unfold ptbAddToken
    have hget : g1.getAttr (.int n) "label" = .ok (strVal pos) := by
      simp only [Instr.exec, setAttr] at h
      cases hf : find g.nodes (NodeId.int n) with
      | none => rw [hf] at h; cases h
      | some a =>
        rw [hf] at h
        obtain rfl := Except.ok.inj h
        simp only [getAttr, find_put_self]
    simp only [hget, except_bind_ok, updateNode_three, hns1]
    rw [show ([Instr.attr (.int n) "label" (strVal (ptbUnescape w)), .attr (.int n) (qual ns "token") (strVal (ptbUnescape w)), .attr (.int n) (qual ns "pos") (strVal pos), .token (.int n)] : List Instr) = [Instr.attr (.int n) "label" (strVal (ptbUnescape w)), .attr (.int n) (qual ns "token") (strVal (ptbUnescape w)), .attr (.int n) (qual ns "pos") (strVal pos)] ++ [.token (.int n)] from rfl, execs_append]
    rfl

theorem ptbAddNode_eq {g : DG} {ns : String} (hns : g.ns = ns) {r : PtbRow} (hp : r.parent ≠ 0) : ptbAddNode r.parent r.id (ptbUnescape r.tree.label) (ptbLen r.tree) g = execs g (ptbEntry ns r) := by
  unfold ptbAddNode ptbEntry
  rw [if_neg hp, execs_cons]
  subst hns
  have h1 := addNode_dict g (.int r.id) [g.ns, qual g.ns "syntax"] [("label", strVal (ptbUnescape r.tree.label)), (qual g.ns "cat", strVal (ptbUnescape r.tree.label))]
  have h2 := addNode_dict g (.int r.id) [g.ns] [("label", strVal (ptbUnescape r.tree.label))]
  simp only [List.map_cons, List.map_nil] at h1 h2
  have step : ∀ (i : Instr), (i.exec g >>= fun g1 => g1.addEdge (.int r.parent) (.int r.id) (.atom .none) none .none [("edge_type", .atom (.str dominanceRelation))]) = (i.exec g >>= fun g1 => execs g1 [.edge (.int r.parent) (.int r.id) [g.ns] [("edge_type", .atom (.str "dominates"))]]) := by
    intro i
    cases h : i.exec g with
    | error e => rfl
    | ok g1 =>
      simp only [except_bind_ok]
      rw [addEdge_default, execs_one, (exec_ns_root h).1]
      rfl
  by_cases hl : ptbLen r.tree > 1
  · simp only [if_pos hl, h1, step]
  · simp only [if_neg hl, h2, step]


end DG

/-- the nodes below a node -/
def Syn.under (ig : Bool) (n : Nat) : Syn → List PtbRow
  | .tok _ _ => []
  | .phrase _ ks => Syn.rowsKids ig n (n + 1) ks

theorem Syn.rowsAt_eq (ig : Bool) (p n : Nat) (t : Syn) : Syn.rowsAt ig p n t = ⟨p, n, t⟩ :: t.under ig n := by
  cases t <;> rfl

theorem Syn.Ok.part {t s : Syn} (h : t.Ok) (hp : Part s t) : s.Ok := by
  intro pos w hw
  refine h pos w ?_
  clear h
  induction hp with
  | refl => exact hw
  | kid hk _ ih => exact .kid hk ih

theorem Syn.Ok.kid {c : List Char} {ks : List Syn} (h : (Syn.phrase c ks).Ok) {k : Syn} (hk : k ∈ ks) : k.Ok := h.part (.kid hk (.refl _))

namespace DG

theorem ptree_node (t : Syn) : ∃ sub, t.ptree = .node t.label sub ∧ sub.length = ptbLen t := by
  cases t with
  | tok pos w => exact ⟨_, rfl, rfl⟩
  | phrase c ks => exact ⟨_, rfl, by rw [Syn.ptrees_eq, List.length_map]; rfl⟩

theorem ptbKids_eq {ns : String} {ks : List Syn} (ih : ∀ k ∈ ks, ∀ ig parent n, 0 < n → (∀ pos w, k = .tok pos w → parent = some n) → ∀ g : DG, g.ns = ns →
      ptbParse ig parent k.ptree (g, n) = (execs g (ptbBody ns n k ++ (k.under ig n).flatMap (ptbRowCalls ns))).map (fun g' => (g', n + k.width ig - 1)))
    (ig : Bool) (parent : Option Nat) (n : Nat) (hn : 0 < n) : ∀ (m : Nat) (g : DG), g.ns = ns →
      ptbKids ig parent n (Syn.ptrees ks) (g, m) = (execs g ((Syn.rowsKids ig n (m + 1) ks).flatMap (ptbRowCalls ns))).map (fun g' => (g', m + Syn.widths ig ks)) := by
  induction ks with
  | nil => intro m g _; rfl
  | cons k ks ihk =>
    intro m g hns
    have ihk := ihk (fun k' hk' => ih k' (List.mem_cons_of_mem _ hk'))
    obtain ⟨sub, hsub, hlen⟩ := ptree_node k
    rw [Syn.ptrees, hsub, ptbKids, Syn.rowsKids, Syn.widths]
    simp only [ptbNodeLabel, except_bind_ok]
    by_cases hk : k.kept ig = true
    · have hk' : ¬ (ig = true ∧ ptbUnescape k.label = ptbNone) := by
        rw [ptbUnescape_none]
        rintro ⟨h1, h2⟩
        simp [Syn.kept, Syn.IsTrace, h1, h2] at hk
      rw [if_neg hk', if_pos hk, if_pos hk, Syn.rowsAt_eq, List.cons_append, List.flatMap_cons, List.flatMap_append]
      have e1 := ptbAddNode_eq hns (r := ⟨n, m + 1, k⟩) (by simp only; omega)
      simp only at e1
      rw [hlen, e1, ptbRowCalls, List.append_assoc, execs_append]
      cases h1 : execs g (ptbEntry ns ⟨n, m + 1, k⟩) with
      | error e => rfl
      | ok g1 =>
        have hns1 := (execs_ns_root _ h1).1.trans hns
        simp only [except_bind_ok]
        rw [← hsub, ih k (by simp) true (some (m + 1)) (m + 1) (by omega) (fun _ _ _ => rfl) g1 hns1, ← List.append_assoc, execs_append g1 (ptbBody ns (m + 1) k ++ _)]
        cases h2 : execs g1 (ptbBody ns (m + 1) k ++ (k.under true (m + 1)).flatMap (ptbRowCalls ns)) with
        | error e => rfl
        | ok g2 =>
          have hns2 := (execs_ns_root _ h2).1.trans hns1
          simp only [except_bind_ok, Except.map]
          have hw := Syn.width_pos true k
          rw [ihk _ g2 hns2, show m + 1 + k.width true - 1 + 1 = m + 1 + k.width true by omega]
          congr 1
          funext g'
          congr 1
          omega
    · have hk' : ig = true ∧ ptbUnescape k.label = ptbNone := by
        rw [ptbUnescape_none]
        simp only [Syn.kept, Bool.not_eq_true, Bool.not_eq_false', Bool.and_eq_true, decide_eq_true_eq] at hk
        exact hk
      rw [if_pos hk', if_neg hk, if_neg hk, ihk _ g hns]
      congr 1
      funext g'
      congr 1
      omega

/-- the calls for a tree -/
theorem ptbParse_eq {ns : String} (t : Syn) : t.Ok → ∀ ig parent n, 0 < n → (∀ pos w, t = .tok pos w → parent = some n) → ∀ g : DG, g.ns = ns →
    ptbParse ig parent t.ptree (g, n) = (execs g (ptbBody ns n t ++ (t.under ig n).flatMap (ptbRowCalls ns))).map (fun g' => (g', n + t.width ig - 1)) := by
  induction t using Syn.ind with
  | h1 pos w =>
    intro hok ig parent n hn hp g hns
    obtain rfl := hp pos w rfl
    have hw := hok pos w (.refl _)
    simp only [Syn.under, List.flatMap_nil, List.append_nil, Syn.width]
    rw [← ptbAddToken_eq hns, Syn.ptree, ptbParse]
    simp only [Instr.exec]
    cases h : g.setAttr (.int n) "label" (strVal pos) with
    | error e => rfl
    | ok g1 =>
      simp only [except_bind_ok, ptbKids, ptbNodeLabel]
      rw [if_neg (by rw [ptbUnescape_none]; exact fun h => hw h.2)]
      cases ptbAddToken (some n) (ptbUnescape w) g1 <;> rfl
  | h2 c ks ih =>
    intro hok ig parent n hn _ g hns
    rw [Syn.ptree, ptbParse, Syn.under, Syn.width, ptbBody, List.cons_append, List.nil_append, execs_cons]
    simp only [Instr.exec, Syn.label]
    cases h : g.setAttr (.int n) "label" (strVal c) with
    | error e => rfl
    | ok g1 =>
      simp only [except_bind_ok]
      have hns1 := (exec_ns_root (i := .attr (.int n) "label" (strVal c)) h).1.trans hns
      rw [ptbKids_eq (fun k hk ig parent n => ih k hk (hok.kid hk) ig parent n) ig parent n hn n g1 hns1]
      congr 1
      funext g'
      congr 1
      omega

/-- the calls for a sentence -/
theorem ptbAddSentence_eq {ns : String} {t : Syn} (hok : t.Ok) (hp : t.IsPhrase) (ig : Bool) {n : Nat} (hn : 0 < n) {g : DG} (hns : g.ns = ns) (hr : g.root = .int 0) :
    ptbAddSentence ig (g, n) t.ptree = (execs g ((Syn.rowsAt ig 0 n t).flatMap (ptbRowCalls ns))).map (fun g' => (g', n + t.width ig)) := by
  unfold ptbAddSentence
  rw [Syn.rowsAt_eq, List.flatMap_cons, ptbRowCalls, List.append_assoc, ptbEntry, if_pos rfl]
  simp only [List.cons_append, List.nil_append, execs_cons, except_bind_ok, Instr.exec]
  obtain ⟨gname, gns, groot, gnodes, gadj, gtok, gsent, gm, gr⟩ := g
  simp only at hns hr
  subst hns hr
  have e1 := addEdge_default ⟨gname, gns, .int 0, gnodes, gadj, gtok, gsent ++ [.int n], gm, gr⟩ (.int 0) (.int n) [("edge_type", .atom (.str dominanceRelation))]
  simp only [Instr.exec] at e1
  simp only [e1]
  have hd : dominanceRelation = "dominates" := rfl
  simp only [hd]
  cases h : DG.addEdge ⟨gname, gns, .int 0, gnodes, gadj, gtok, gsent ++ [.int n], gm, gr⟩ (.int 0) (.int n) (.set ([gns].map Atom.str)) none .none [("edge_type", .atom (.str "dominates"))] with
  | error e => rfl
  | ok g1 =>
    have hns1 : g1.ns = gns := (exec_ns_root (i := .edge (.int 0) (.int n) [gns] [("edge_type", .atom (.str "dominates"))]) h).1
    simp only [except_bind_ok]
    rw [ptbParse_eq t hok ig none n hn (by obtain ⟨c, ks, rfl⟩ := hp; intro _ _ h; cases h) g1 hns1]
    have hw := Syn.width_pos ig t
    cases execs g1 (ptbBody gns n t ++ (t.under ig n).flatMap (ptbRowCalls gns)) with
    | error e => rfl
    | ok g2 =>
      show Except.ok (g2, n + t.width ig - 1 + 1) = Except.ok (g2, n + t.width ig)
      rw [show n + t.width ig - 1 + 1 = n + t.width ig by omega]

/-- the calls for all sentences -/
theorem ptbSentences_eq {ns : String} (ig : Bool) (ts : List Syn) (hok : ∀ t ∈ ts, t.Ok) (hp : ∀ t ∈ ts, t.IsPhrase) : ∀ (n : Nat) (g : DG), 0 < n → g.ns = ns → g.root = .int 0 →
    ∃ m, (ts.map Syn.ptree).foldlM (ptbAddSentence ig) (g, n) = (execs g ((Syn.rowsDoc ig n ts).flatMap (ptbRowCalls ns))).map (fun g' => (g', m)) := by
  induction ts with
  | nil => intro n g _ _ _; exact ⟨n, rfl⟩
  | cons t ts ih =>
    intro n g hn hns hr
    rw [List.map_cons, List.foldlM_cons, Syn.rowsDoc, List.flatMap_append, execs_append, ptbAddSentence_eq (hok t (by simp)) (hp t (by simp)) ig hn hns hr]
    cases h : execs g ((Syn.rowsAt ig 0 n t).flatMap (ptbRowCalls ns)) with
    | error e => exact ⟨0, rfl⟩
    | ok g1 =>
      obtain ⟨h1, h2⟩ := execs_ns_root _ h
      exact ih (fun t' ht' => hok t' (List.mem_cons_of_mem _ ht')) (fun t' ht' => hp t' (List.mem_cons_of_mem _ ht')) (n + t.width ig) g1 (by omega) (h1.trans hns) (h2.trans hr)

end DG
end Dg
