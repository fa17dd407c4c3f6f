import Verif.Props.C30

/-! C51: Penn Treebank strings (tree2bracket). -/

namespace Dg
open Dict

namespace Rose

theorem ptb_head (t : Rose (List Char)) : ∃ r, t.ptb = '(' :: r := by
  cases t with
  | node l kids => rw [ptb]; exact ⟨_, rfl⟩

theorem ptbAll_head (ts : List (Rose (List Char))) (s : List Char) : ∃ c r, ptbAll ts ++ ')' :: s = c :: r ∧ (c = '(' ∨ c = ')') := by
  cases ts with
  | nil => exact ⟨')', s, rfl, .inr rfl⟩
  | cons t ts =>
    obtain ⟨r, hr⟩ := ptb_head t
    rw [ptbAll, hr]; exact ⟨'(', _, rfl, .inl rfl⟩

theorem bracketFree_sep {l : List Char} (h : BracketFree l) (n : Nat) : BracketFree (l ++ (if l ≠ [] ∧ n ≠ 0 then [' '] else [])) := by
  unfold BracketFree at *
  split <;> simp [h.1, h.2]

theorem ptb_inj (t : Rose (List Char)) : (∀ l ∈ t.labels, BracketFree l) →
    ∀ (t' : Rose (List Char)), (∀ l ∈ t'.labels, BracketFree l) → ∀ s s', t.ptb ++ s = t'.ptb ++ s' → t = t' ∧ s = s' := by
  induction t using ind with
  | h l kids ih =>
    intro hl t' hl' s s' e
    cases t' with
    | node l' kids' =>
      rw [labels, labelsAll_eq] at hl hl'
      rw [ptb, ptb] at e
      rw [List.append_assoc, List.append_assoc (_ :: _ ++ _), List.cons_append, List.append_assoc, List.cons_append, List.append_assoc] at e
      simp only [List.cons_append, List.append_assoc, List.cons.injEq, true_and, List.nil_append] at e
      rw [← List.append_assoc, ← List.append_assoc l'] at e
      obtain ⟨e1, e2⟩ := split_label (bracketFree_sep (hl l (by simp)) _) (bracketFree_sep (hl' l' (by simp)) _) (ptbAll_head _ _) (ptbAll_head _ _) e
      have key : ∀ (ks : List (Rose (List Char))), (∀ k ∈ ks, k ∈ kids) → ∀ ks' : List (Rose (List Char)), (∀ k ∈ ks', ∀ x ∈ k.labels, BracketFree x) →
          ptbAll ks ++ ')' :: s = ptbAll ks' ++ ')' :: s' → ks = ks' ∧ s = s' := by
        intro ks
        induction ks with
        | nil =>
          intro _ ks' _ e
          cases ks' with
          | nil => simp [ptbAll] at e; exact ⟨rfl, e⟩
          | cons k' ks' => obtain ⟨r, hr⟩ := ptb_head k'; simp [ptbAll, hr] at e
        | cons k ks ih2 =>
          intro hin ks' hks' e
          cases ks' with
          | nil => obtain ⟨r, hr⟩ := ptb_head k; simp [ptbAll, hr] at e
          | cons k' ks' =>
            rw [ptbAll, ptbAll, List.append_assoc, List.append_assoc, List.append_assoc, List.append_assoc] at e
            have hk : ∀ x ∈ k.labels, BracketFree x := fun x hx => hl x (List.mem_cons_of_mem _ (List.mem_flatMap.2 ⟨k, hin k (by simp), hx⟩))
            obtain ⟨rfl, e3⟩ := ih k (hin k (by simp)) hk k' (hks' k' (by simp)) _ _ e
            cases ks with
            | nil =>
              cases ks' with
              | nil => simp [ptbAll] at e3; exact ⟨rfl, e3⟩
              | cons k' ks' => simp [ptbAll] at e3
            | cons k1 ks =>
              cases ks' with
              | nil => simp [ptbAll] at e3
              | cons k1' ks' =>
                simp only [List.length_cons, ne_eq, Nat.succ_ne_zero, not_false_eq_true, if_true, List.cons_append, List.nil_append, List.cons.injEq, true_and] at e3
                obtain ⟨e5, e4⟩ := ih2 (fun k hk => hin k (List.mem_cons_of_mem _ hk)) (k1' :: ks') (fun k hk => hks' k (List.mem_cons_of_mem _ hk)) e3
                exact ⟨by rw [e5], e4⟩
      obtain ⟨rfl, e5⟩ := key kids (fun k hk => hk) kids' (fun k hk x hx => hl' x (List.mem_cons_of_mem _ (List.mem_flatMap.2 ⟨k, hk, hx⟩))) e2
      refine ⟨?_, e5⟩
      congr 1
      by_cases hk : kids.length ≠ 0
      · by_cases h1 : l = []
        · by_cases h2 : l' = []
          · rw [h1, h2]
          · simp [h1, h2] at e1
        · by_cases h2 : l' = []
          · simp [h1, h2] at e1
          · rw [if_pos ⟨h1, hk⟩, if_pos ⟨h2, hk⟩] at e1
            exact List.append_cancel_right e1
      · simpa [hk] using e1

theorem ptb_balanced (t : Rose (List Char)) : (∀ l ∈ t.labels, BracketFree l) → Balanced t.ptb := by
  induction t using ind with
  | h l kids ih =>
    intro hl
    rw [labels, labelsAll_eq] at hl
    have hsp : ∀ (c : Prop) [Decidable c], Balanced (if c then [' '] else []) := by
      intro c _
      split
      · exact .plain (by decide) (by decide) .nil
      · exact .nil
    have key : ∀ ks : List (Rose (List Char)), (∀ k ∈ ks, k ∈ kids) → Balanced (ptbAll ks) := by
      intro ks
      induction ks with
      | nil => intro _; rw [ptbAll]; exact .nil
      | cons k ks ih2 =>
        intro hin
        rw [ptbAll]
        refine Balanced.append (Balanced.append (ih k (hin k (by simp)) (fun x hx => ?_)) (hsp _)) (ih2 (fun k hk => hin k (List.mem_cons_of_mem _ hk)))
        exact hl x (List.mem_cons_of_mem _ (List.mem_flatMap.2 ⟨k, hin k (by simp), hx⟩))
    rw [ptb]
    exact .wrap (Balanced.append (Balanced.append (balanced_of_free (hl l (by simp))) (hsp _)) (key kids (fun k hk => hk))) .nil

theorem ptbAll_eq (ls : List (Rose (List Char))) : ptbAll ls = joinChars [' '] (ls.map ptb) := by
  induction ls with
  | nil => rfl
  | cons l ls ih =>
    cases ls with
    | nil => simp [ptbAll, joinChars]
    | cons l' ls => rw [ptbAll, ih]; simp [joinChars]

theorem ptbAll_isEmpty (ls : List (Rose (List Char))) : (ptbAll ls).isEmpty = decide (ls.length = 0) := by
  cases ls with
  | nil => rfl
  | cons l ls =>
    obtain ⟨r, hr⟩ := ptb_head l
    simp [ptbAll, hr]

end Rose

namespace DG

theorem tree2bracketAux_eq (g : DG) (succ : Dict NodeId (List NodeId)) (fuel : Nat) (n : NodeId) :
    g.tree2bracketAux succ fuel n = unfoldRun (fun n strs => g.node2bracket n (joinChars [' '] strs)) succ fuel n := by
  induction fuel generalizing n with
  | zero => rfl
  | succ fuel ih =>
    rw [tree2bracketAux, unfoldRun]
    cases find succ n with
    | none => simp [mapE, bind, Except.bind, joinChars]
    | some cs => rw [show tree2bracketAux g succ fuel = unfoldRun (fun n strs => g.node2bracket n (joinChars [' '] strs)) succ fuel from funext ih]; rfl

theorem fmtVal_ok {v : Val} {cs : List Char} (h : fmtVal v = .ok cs) : ∃ s, v = .atom (.str s) ∧ cs = s.toList := by
  cases v with
  | atom a =>
    cases a with
    | str s => exact ⟨s, rfl, by simpa [fmtVal] using h.symm⟩
    | _ => simp [fmtVal] at h
  | _ => simp [fmtVal] at h

/-- no token string is empty -/
def NoEmptyTokens (g : DG) : Prop := ∀ n, g.nodeAttr n (g.ns ++ (":" ++ "token")) ≠ some (.atom (.str ""))

theorem emits_ptb {g : DG} (hne : g.NoEmptyTokens) (t : Rose NodeId) : ∀ {s : List Char}, Emits (fun n strs => g.node2bracket n (joinChars [' '] strs)) t s →
    ∃ l, g.PtbTree t l ∧ s = l.ptb := by
  induction t using Rose.ind with
  | h n kids ih =>
    intro s h
    cases h with
    | @node _ _ strs _ hf he =>
      have hk : ∃ ls, List.Forall₂ g.PtbTree kids ls ∧ strs = ls.map Rose.ptb := by
        clear he
        induction hf with
        | nil => exact ⟨[], .nil, rfl⟩
        | cons h1 _ ih2 =>
          obtain ⟨l, a, b⟩ := ih _ (by simp) h1
          obtain ⟨ls, c, d⟩ := ih2 (fun k hk => ih k (List.mem_cons_of_mem _ hk))
          exact ⟨l :: ls, .cons a c, by simp [b, d]⟩
      obtain ⟨ls, hls, rfl⟩ := hk
      rw [← Rose.ptbAll_eq] at he
      unfold node2bracket at he
      cases hn : find g.nodes n with
      | none => rw [hn] at he; simp at he
      | some a =>
        rw [hn] at he
        simp only at he
        cases ht : find a (qual g.ns "token") with
        | some tok =>
          rw [ht] at he
          simp only [bind, Except.bind] at he
          cases hp : fmtVal ((find a (qual g.ns "pos")).getD (.atom (.str ""))) with
          | error e => rw [hp] at he; simp at he
          | ok pc =>
            rw [hp] at he
            obtain ⟨p, hpe, rfl⟩ := fmtVal_ok hp
            simp only at he
            cases hv : fmtVal tok with
            | error e => rw [hv] at he; simp at he
            | ok tc =>
              rw [hv] at he
              obtain ⟨ts, rfl, rfl⟩ := fmtVal_ok hv
              simp only [Except.ok.injEq] at he
              have hta : g.nodeAttr n (g.ns ++ (":" ++ "token")) = some (.atom (.str ts)) := by rw [nodeAttr_of hn]; exact ht
              have hts : ts.toList ≠ [] := by
                intro h'
                exact hne n (by rw [hta]; congr; exact String.toList_inj.1 (by simpa using h'))
              have hpt : g.PosText n p := by
                unfold PosText
                rw [nodeAttr_of hn]
                change find a (qual g.ns "pos") = _ ∨ (find a (qual g.ns "pos") = _ ∧ _)
                cases hf : find a (qual g.ns "pos") with
                | none => rw [hf] at hpe; simp at hpe; exact .inr ⟨rfl, hpe⟩
                | some v => rw [hf] at hpe; simp at hpe; exact .inl (by rw [hpe])
              have hspace : spaceIf (!p.toList.isEmpty) = if p = "" then [] else [' '] := by
                by_cases h' : p = ""
                · subst h'; rfl
                · have : p.toList ≠ [] := fun h'' => h' (String.toList_inj.1 (by simpa using h''))
                  simp [spaceIf, h']
              refine ⟨_, .node (.inl ⟨ts, p, hta, hpt, rfl⟩) hls, ?_⟩
              rw [← he, Rose.ptb, hspace, Rose.ptbAll_isEmpty]
              by_cases h0 : ls.length = 0
              · simp [spaceIf, h0]
              · simp [spaceIf, h0, hts]
        | none =>
          rw [ht] at he
          simp only [bind, Except.bind] at he
          cases hv : fmtVal ((find a "label").getD (.atom (.str ""))) with
          | error e => rw [hv] at he; simp at he
          | ok lc =>
            rw [hv] at he
            obtain ⟨l, hle, rfl⟩ := fmtVal_ok hv
            simp only [Except.ok.injEq] at he
            have hta : g.nodeAttr n (g.ns ++ (":" ++ "token")) = none := by rw [nodeAttr_of hn]; exact ht
            have hlt : g.PtbText n l.toList := by
              refine .inr ⟨hta, ?_⟩
              rw [nodeAttr_of hn]
              cases hf : find a "label" with
              | none => rw [hf] at hle; simp at hle; subst hle; exact .inr ⟨rfl, rfl⟩
              | some v => rw [hf] at hle; simp at hle; exact .inl ⟨l, by rw [hle], rfl⟩
            refine ⟨_, .node hlt hls, ?_⟩
            rw [← he, Rose.ptb, Rose.ptbAll_isEmpty]
            by_cases h0 : ls.length = 0
            · simp [spaceIf, h0]
            · by_cases h1 : l.toList = []
              · simp [spaceIf, h0, h1]
              · simp [spaceIf, h0, h1]

/-- **C51 (contents)**.  If `tree2bracket(g, root)` returns, its result is the Penn Treebank notation of the tree of the nodes below `root`: each of them exactly once, below the node that
dominates it, siblings in text order (for graphs without empty token strings). -/
theorem c51_ptb_of_tree (g : DG) (hr : Reachable g) (hne : g.NoEmptyTokens) (fuel : Nat) (root : NodeId) (s : List Char) (h : g.tree2bracket fuel root = .ok s) :
    ∃ ts t l, g.TokensBelow root ts ∧ g.TreeBelow root ts t ∧ g.PtbTree t l ∧ s = l.ptb := by
  unfold tree2bracket at h
  cases hs : g.sortedBfsSuccessors fuel root with
  | error e => rw [hs] at h; simp [bind, Except.bind] at h
  | ok d =>
    rw [hs] at h
    simp only [bind, Except.bind, tree2bracketAux_eq] at h
    obtain ⟨ts, hts, hsucc⟩ := c31_sorted_bfs_successors g hr fuel root d hs
    obtain ⟨t, h1, h2, h3⟩ := unfoldRun_tree h
    obtain ⟨l, h4, rfl⟩ := emits_ptb hne t h3
    exact ⟨ts, t, l, hts, treeBelow_of_follows hsucc h1 h2, h4, rfl⟩

theorem bfsSample_ptb : bfsSample.tree2bracket 9 (.str "s") = .ok "(S (NP (she)) (VP ((sings))))".toList := by
  have e : bfsSample.sortedBfsSuccessors 9 (.str "s") = .ok [(.str "s", [.str "np", .str "vp"]), (.str "np", [.str "t0"]), (.str "vp", [.str "t1"])] := by
    unfold sortedBfsSuccessors
    rw [bfsSample_edges]
    decide +kernel
  unfold tree2bracket
  rw [e]
  decide +kernel

/-- the hypotheses of c51_ptb_of_tree can be met -/
example : Reachable bfsSample ∧ bfsSample.NoEmptyTokens ∧ bfsSample.tree2bracket 9 (.str "s") = .ok "(S (NP (she)) (VP ((sings))))".toList := by
  refine ⟨bfsSample_reachable, ?_, bfsSample_ptb⟩
  intro n h
  have key : ∀ p ∈ bfsSample.nodes, find p.2 "a:token" ≠ some (.atom (.str "")) := by decide +kernel
  unfold nodeAttr nodeAttrs at h
  cases hn : find bfsSample.nodes n with
  | none => rw [hn] at h; simp at h
  | some a =>
    rw [hn] at h
    have e : bfsSample.ns ++ (":" ++ "token") = "a:token" := by decide +kernel
    rw [e] at h
    exact key _ (find_some_mem hn) h

/-- **C51 (decoding), partial**: the notation can be decoded if no token, tag or label contains a bracket.  Missing: the code does not escape brackets (see the next theorem). -/
theorem c51_decodable_partial (l l' : Rose (List Char)) (h : ∀ x ∈ l.labels, BracketFree x) (h' : ∀ x ∈ l'.labels, BracketFree x) (rest rest' : List Char)
    (e : l.ptb ++ rest = l'.ptb ++ rest') : l = l' ∧ rest = rest' ∧ Balanced l.ptb :=
  let r := Rose.ptb_inj l h l' h' rest rest' e
  ⟨r.1, r.2, Rose.ptb_balanced l h⟩

example : (∀ x ∈ (Rose.node ['S'] [.node ['N', ' ', 'a'] [], .node ['b'] []]).labels, BracketFree x) ∧
    (Rose.node ['S'] [.node ['N', ' ', 'a'] [], .node ['b'] []]).ptb = "(S (N a) (b))".toList := by
  constructor
  · simp [Rose.labels, Rose.labelsAll, BracketFree]
  · decide +kernel

/-- sample: the root dominates a token that ends with a bracket -/
def ptbSample : DG := (DG.init "" "a" (some (.str "r"))).run
  [.addNode (.str "t0") (.atom .none) .none [("a:token", .atom (.str "x)"))], .setTokens [.str "t0"],
   .addEdge (.str "r") (.str "t0") (.atom .none) none .none [("edge_type", .atom (.str "dominates"))]]

theorem bracketCount_balanced {s : List Char} (h : Balanced s) : s.count '(' = s.count ')' := by
  induction h with
  | nil => rfl
  | plain h1 h2 _ ih => simp [h1, h2, ih]
  | wrap _ _ ih1 ih2 => simp [List.count_append, ih1, ih2]; omega

/-- **C51 fails** for tokens with brackets: they are not escaped, and the output is not even balanced. -/
theorem c51_fails_bracket_in_token : ptbSample.TokenStr (.str "t0") "x)" ∧ ∃ s, ptbSample.tree2bracket 9 (.str "r") = .ok s ∧ ¬ Balanced s := by
  refine ⟨by unfold TokenStr; decide +kernel, "((x)))".toList, ?_, ?_⟩
  · have hx : ptbSample.horizontalPositions 9 (.str "r") = .ok [(.str "t0", 0)] := by decide +kernel
    have c1 : ptbSample.sortedChildren [(.str "t0", 0)] (.str "r") = .ok [.str "t0"] := by decide +kernel
    have c2 : ptbSample.sortedChildren [(.str "t0", 0)] (.str "t0") = .ok [] := by decide +kernel
    have k : keys ptbSample.nodes = [.str "r", .str "t0"] := by decide +kernel
    have e : ptbSample.sortedBfsEdges 9 (.str "r") = ([(.str "r", .str "t0")], none) := by
      unfold sortedBfsEdges
      rw [hx]
      simp [c1, c2, k, bfsLoop]
    unfold tree2bracket sortedBfsSuccessors
    rw [e]
    decide +kernel
  · intro h
    have := bracketCount_balanced h
    revert this
    decide +kernel

end DG
end Dg
