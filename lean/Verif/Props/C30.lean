import Verif.Lemmas.Unfold
import Verif.Lemmas.Text

/-! C30: FREQT export. -/

namespace Dg
open Dict

theorem freqt_xlat (cs : List Char) : xlat (freqtEscape.map (fun kv => (kv.1.toList, kv.2.toList))) 0 cs = withoutBrackets cs := by
  have e : freqtEscape.map (fun kv => (kv.1.toList, kv.2.toList)) = [(['('], ['-', 'L', 'R', 'B', '-']), ([')'], ['-', 'R', 'R', 'B', '-'])] := by decide
  rw [e]
  induction cs with
  | nil => simp [xlat, withoutBrackets]
  | cons c cs ih =>
    have hw : withoutBrackets (c :: cs) = (if c = '(' then ['-', 'L', 'R', 'B', '-'] else if c = ')' then ['-', 'R', 'R', 'B', '-'] else [c]) ++ withoutBrackets cs := rfl
    rw [hw, xlat]
    by_cases h1 : c = '('
    · subst h1; simp [firstKey, ih]
    · by_cases h2 : c = ')'
      · subst h2; simp [firstKey, ih]
      · simp [firstKey, h1, h2, Ne.symm h1, Ne.symm h2, ih]

theorem freqtEsc_str (s : String) : freqtEsc (.atom (.str s)) = .ok (withoutBrackets s.toList) := by
  show (multipleReplace freqtEscape s).map String.toList = _
  unfold multipleReplace
  rw [if_neg (by decide)]
  simp only [Except.map, freqt_xlat, String.toList_ofList]

theorem freqtEsc_ok {v : Val} {cs : List Char} (h : freqtEsc v = .ok cs) : ∃ s, v = .atom (.str s) ∧ cs = withoutBrackets s.toList := by
  cases v with
  | atom a =>
    cases a with
    | str s => rw [freqtEsc_str] at h; exact ⟨s, rfl, by simpa using h.symm⟩
    | _ => simp [freqtEsc] at h
  | _ => simp [freqtEsc] at h

namespace DG

theorem sentence2freqt_eq (g : DG) (pos : Bool) (succ : Dict NodeId (List NodeId)) (fuel : Nat) (n : NodeId) :
    g.sentence2freqt pos succ fuel n = unfoldRun (fun n strs => g.node2freqt pos n strs.flatten) succ fuel n := by
  induction fuel generalizing n with
  | zero => rfl
  | succ fuel ih =>
    rw [sentence2freqt, unfoldRun]
    cases find succ n with
    | none => simp [mapE, bind, Except.bind]
    | some cs => rw [show sentence2freqt g pos succ fuel = unfoldRun (fun n strs => g.node2freqt pos n strs.flatten) succ fuel from funext ih]; rfl

theorem bracketsAll_eq (ls : List (Rose (List Char))) : Rose.bracketsAll ls = (ls.map Rose.brackets).flatten := by
  induction ls with
  | nil => rfl
  | cons l ls ih => rw [Rose.bracketsAll, ih]; rfl

theorem nodeAttr_of {g : DG} {n : NodeId} {a : Attrs} (h : find g.nodes n = some a) (k : String) : g.nodeAttr n k = find a k := by
  simp [nodeAttr, nodeAttrs, h]

theorem emits_freqt {g : DG} {pos : Bool} (t : Rose NodeId) : ∀ {s : List Char}, Emits (fun n strs => g.node2freqt pos n strs.flatten) t s →
    ∃ l, g.FreqtTree pos t l ∧ s = l.brackets := by
  induction t using Rose.ind with
  | h n kids ih =>
    intro s h
    cases h with
    | @node _ _ strs _ hf he =>
      have hk : ∃ ls, List.Forall₂ (g.FreqtTree pos) kids ls ∧ strs = ls.map Rose.brackets := by
        clear he
        induction hf with
        | nil => exact ⟨[], .nil, rfl⟩
        | cons h1 _ ih2 =>
          obtain ⟨l, a, b⟩ := ih _ (by simp) h1
          obtain ⟨ls, c, d⟩ := ih2 (fun k hk => ih k (List.mem_cons_of_mem _ hk))
          exact ⟨l :: ls, .cons a c, by simp [b, d]⟩
      obtain ⟨ls, hls, rfl⟩ := hk
      rw [← bracketsAll_eq] at he
      unfold node2freqt at he
      cases hn : find g.nodes n with
      | none => rw [hn] at he; simp at he
      | some a =>
        rw [hn] at he
        simp only at he
        cases ht : find a (qual g.ns "token") with
        | some tok =>
          rw [ht] at he
          simp only [bind, Except.bind] at he
          cases hv : freqtEsc tok with
          | error e => rw [hv] at he; simp at he
          | ok tc =>
            rw [hv] at he
            obtain ⟨ts, rfl, rfl⟩ := freqtEsc_ok hv
            have hta : g.nodeAttr n (g.ns ++ (":" ++ "token")) = some (.atom (.str ts)) := by rw [nodeAttr_of hn]; exact ht
            simp only at he
            cases pos with
            | false =>
              simp only [Bool.false_eq_true, if_false, Except.ok.injEq] at he
              refine ⟨_, .token rfl hta hls, ?_⟩
              rw [← he, Rose.brackets]
              simp
            | true =>
              simp only [if_true] at he
              cases hp : freqtEsc ((find a (qual g.ns "pos")).getD (.atom (.str ""))) with
              | error e => rw [hp] at he; simp at he
              | ok pc =>
                rw [hp] at he
                obtain ⟨p, hpe, rfl⟩ := freqtEsc_ok hp
                simp only [Except.ok.injEq] at he
                have hpt : g.PosText n p := by
                  unfold PosText
                  rw [nodeAttr_of hn]
                  change find a (qual g.ns "pos") = _ ∨ (find a (qual g.ns "pos") = _ ∧ _)
                  cases hf : find a (qual g.ns "pos") with
                  | none => rw [hf] at hpe; simp at hpe; exact .inr ⟨rfl, hpe⟩
                  | some v => rw [hf] at hpe; simp at hpe; exact .inl (by rw [hpe])
                refine ⟨_, .posToken rfl hta hpt hls, ?_⟩
                rw [← he, Rose.brackets, Rose.bracketsAll, Rose.brackets, Rose.bracketsAll]
                simp
        | none =>
          rw [ht] at he
          simp only [bind, Except.bind] at he
          cases hv : freqtEsc ((find a "label").getD (idVal n)) with
          | error e => rw [hv] at he; simp at he
          | ok lc =>
            rw [hv] at he
            obtain ⟨l, hle, rfl⟩ := freqtEsc_ok hv
            simp only [Except.ok.injEq] at he
            have hta : g.nodeAttr n (g.ns ++ (":" ++ "token")) = none := by rw [nodeAttr_of hn]; exact ht
            have hlt : g.LabelText n l := by
              unfold LabelText
              rw [nodeAttr_of hn]
              cases hf : find a "label" with
              | none =>
                rw [hf] at hle
                right
                cases n with
                | int i => simp [idVal] at hle
                | str s => simp [idVal] at hle; exact ⟨rfl, by rw [hle]⟩
              | some v => rw [hf] at hle; simp at hle; exact .inl (by rw [hle])
            refine ⟨_, .other hta hlt hls, ?_⟩
            rw [← he, Rose.brackets]
            simp

theorem freqtTree_free {g : DG} {pos : Bool} (t : Rose NodeId) : ∀ {l : Rose (List Char)}, g.FreqtTree pos t l → ∀ x ∈ l.labels, BracketFree x := by
  induction t using Rose.ind with
  | h n kids ih =>
    intro l h
    have sub : ∀ {ls}, List.Forall₂ (g.FreqtTree pos) kids ls → ∀ x ∈ ls.flatMap Rose.labels, BracketFree x := by
      intro ls hls x hx
      obtain ⟨l, hl, hx⟩ := List.mem_flatMap.1 hx
      obtain ⟨k, hk, hkl⟩ := forall₂_mem_right hls hl
      exact ih k hk hkl x hx
    cases h with
    | token _ _ hls =>
      intro x hx
      rw [Rose.labels, Rose.labelsAll_eq] at hx
      rcases List.mem_cons.1 hx with rfl | hx
      · exact withoutBrackets_free _
      · exact sub hls x hx
    | posToken _ _ _ hls =>
      intro x hx
      rw [Rose.labels, Rose.labelsAll, Rose.labels, Rose.labelsAll_eq, Rose.labelsAll_eq] at hx
      simp only [List.flatMap_nil, List.cons_append, List.nil_append] at hx
      rcases List.mem_cons.1 hx with rfl | hx
      · exact withoutBrackets_free _
      · rcases List.mem_cons.1 hx with rfl | hx
        · exact withoutBrackets_free _
        · exact sub hls x hx
    | other _ _ hls =>
      intro x hx
      rw [Rose.labels, Rose.labelsAll_eq] at hx
      rcases List.mem_cons.1 hx with rfl | hx
      · exact withoutBrackets_free _
      · exact sub hls x hx

/-- **C30 (contents)**.  If `docgraph2freqt(g, root)` returns, its result is the bracket notation of the tree of the nodes below `root`: each of them exactly once, below the node
that dominates it, siblings in text order; the string is balanced, and brackets in tokens, tags and labels never reach it. -/
theorem c30_freqt_of_tree (g : DG) (hr : Reachable g) (fuel : Nat) (pos : Bool) (root : NodeId) (s : List Char) (h : g.rootFreqt fuel pos root = .ok s) :
    ∃ ts t l, g.TokensBelow root ts ∧ g.TreeBelow root ts t ∧ g.FreqtTree pos t l ∧ s = l.brackets ∧ (∀ x ∈ l.labels, BracketFree x) ∧ Balanced s := by
  unfold rootFreqt at h
  cases hs : g.sortedBfsSuccessors fuel root with
  | error e => rw [hs] at h; simp [bind, Except.bind] at h
  | ok d =>
    rw [hs] at h
    simp only [bind, Except.bind, sentence2freqt_eq] at h
    obtain ⟨ts, hts, hsucc⟩ := c31_sorted_bfs_successors g hr fuel root d hs
    obtain ⟨t, h1, h2, h3⟩ := unfoldRun_tree h
    obtain ⟨l, h4, rfl⟩ := emits_freqt t h3
    have hfree := freqtTree_free t h4
    exact ⟨ts, t, l, hts, treeBelow_of_follows hsucc h1 h2, h4, rfl, hfree, Rose.brackets_balanced l hfree⟩

theorem bfsSample_freqt : bfsSample.rootFreqt 9 false (.str "s") = .ok "(S(NP(she))(VP(-LRB-sings-RRB-)))".toList := by
  have e : bfsSample.sortedBfsSuccessors 9 (.str "s") = .ok [(.str "s", [.str "np", .str "vp"]), (.str "np", [.str "t0"]), (.str "vp", [.str "t1"])] := by
    unfold sortedBfsSuccessors
    rw [bfsSample_edges]
    decide +kernel
  unfold rootFreqt
  rw [e]
  decide +kernel

/-- the hypotheses of c30_freqt_of_tree can be met -/
example : Reachable bfsSample ∧ bfsSample.rootFreqt 9 false (.str "s") = .ok "(S(NP(she))(VP(-LRB-sings-RRB-)))".toList := ⟨bfsSample_reachable, bfsSample_freqt⟩

/-- **C30 (decoding)**.  Bracket notation of trees whose labels contain no brackets can be decoded: from a string starting with the notation of a tree, the tree and
the rest of the string can be recovered. -/
theorem c30_decodable (l l' : Rose (List Char)) (h : ∀ x ∈ l.labels, BracketFree x) (h' : ∀ x ∈ l'.labels, BracketFree x) (rest rest' : List Char)
    (e : l.brackets ++ rest = l'.brackets ++ rest') : l = l' ∧ rest = rest' := Rose.brackets_inj l h l' h' rest rest' e

example : (∀ x ∈ (Rose.node ['S'] [.node ['a'] [], .node ['b'] []]).labels, BracketFree x) := by
  simp [Rose.labels, Rose.labelsAll, BracketFree]

/-- **C30 (injectivity)**.  If two exports (of any graphs, with any options) yield the same string, then they show the same labelled tree. -/
theorem c30_injective (g g' : DG) (hr : Reachable g) (hr' : Reachable g') (fuel fuel' : Nat) (pos pos' : Bool) (root root' : NodeId) (s : List Char)
    (h : g.rootFreqt fuel pos root = .ok s) (h' : g'.rootFreqt fuel' pos' root' = .ok s) :
    ∃ ts ts' t t' l, g.TokensBelow root ts ∧ g.TreeBelow root ts t ∧ g.FreqtTree pos t l ∧ g'.TokensBelow root' ts' ∧ g'.TreeBelow root' ts' t' ∧ g'.FreqtTree pos' t' l := by
  obtain ⟨ts, t, l, a1, a2, a3, a4, a5, _⟩ := c30_freqt_of_tree g hr fuel pos root s h
  obtain ⟨ts', t', l', b1, b2, b3, b4, b5, _⟩ := c30_freqt_of_tree g' hr' fuel' pos' root' s h'
  obtain ⟨rfl, _⟩ := c30_decodable l l' a5 b5 [] [] (by rw [← a4, ← b4])
  exact ⟨ts, ts', t, t', l, a1, a2, a3, b1, b2, b3⟩

/-- the texts FREQT needs are strings -/
def FreqtReady (g : DG) (pos : Bool) (n : NodeId) : Prop :=
  (∃ tok, g.nodeAttr n (g.ns ++ (":" ++ "token")) = some (.atom (.str tok)) ∧ (pos = true → ∃ p, g.PosText n p)) ∨
  (g.nodeAttr n (g.ns ++ (":" ++ "token")) = none ∧ ∃ l, g.LabelText n l)

theorem node2freqt_total {g : DG} {pos : Bool} {n : NodeId} (hn : g.HasNode n) (h : g.FreqtReady pos n) (child : List Char) : ∃ s, g.node2freqt pos n child = .ok s := by
  obtain ⟨a, ha⟩ := hasNode_iff'.1 hn
  have ha' : find g.nodes n = some a := ha
  unfold node2freqt
  rw [ha']
  simp only
  rcases h with ⟨tok, h1, h2⟩ | ⟨h1, l, h2⟩
  · rw [nodeAttr_of ha'] at h1
    have h1' : find a (qual g.ns "token") = some (.atom (.str tok)) := h1
    rw [h1']
    simp only [freqtEsc_str, bind, Except.bind]
    cases pos with
    | false => exact ⟨_, rfl⟩
    | true =>
      obtain ⟨p, hp⟩ := h2 rfl
      unfold PosText at hp
      rw [nodeAttr_of ha'] at hp
      have : (find a (qual g.ns "pos")).getD (.atom (.str "")) = .atom (.str p) := by
        rcases hp with hp | ⟨hp, rfl⟩
        · rw [show find a (qual g.ns "pos") = _ from hp]; rfl
        · rw [show find a (qual g.ns "pos") = _ from hp]; rfl
      rw [this]
      simp only [freqtEsc_str, if_true]
      exact ⟨_, rfl⟩
  · rw [nodeAttr_of ha'] at h1
    have h1' : find a (qual g.ns "token") = none := h1
    rw [h1']
    have : (find a "label").getD (idVal n) = .atom (.str l) := by
      unfold LabelText at h2
      rw [nodeAttr_of ha'] at h2
      rcases h2 with h2 | ⟨h2, rfl⟩ <;> rw [h2] <;> rfl
    simp only [this, freqtEsc_str, bind, Except.bind]
    exact ⟨_, rfl⟩

theorem covers_hasNode {g : DG} (wf : WF g) {u v : NodeId} (hu : g.HasNode u) (h : g.Covers u v) : g.HasNode v := by
  rcases Relation.ReflTransGen.cases_tail h with e | ⟨b, _, hb⟩
  · exact e ▸ hu
  · exact (dominates_ends wf hb).2

/-- **C30 (totality)**.  If sorted_bfs_successors returns and the tokens, tags and labels below `root` are strings, then there is a FREQT string (given enough stack for the number of nodes). -/
theorem c30_freqt_total (g : DG) (hr : Reachable g) (pos : Bool) (root : NodeId) (hroot : g.HasNode root) (fuel : Nat) (hfuel : (keys g.nodes).length < fuel)
    (d : Dict NodeId (List NodeId)) (hd : g.sortedBfsSuccessors fuel root = .ok d) (hready : ∀ n, g.Covers root n → g.FreqtReady pos n) :
    ∃ s, g.rootFreqt fuel pos root = .ok s := by
  have wf := hr.inv.wf
  obtain ⟨ts, hts, hsucc⟩ := c31_sorted_bfs_successors g hr fuel root d hd
  unfold rootFreqt
  rw [hd]
  simp only [bind, Except.bind, sentence2freqt_eq]
  exact unfoldRun_total wf hsucc (fun n hn strs => node2freqt_total (covers_hasNode wf hroot hn) (hready n hn) _) .refl
    (Nat.lt_of_le_of_lt (relRank_le _ _ _) hfuel)

/-- the hypotheses of c30_freqt_total can be met -/
example : ∃ d, bfsSample.sortedBfsSuccessors 9 (.str "s") = .ok d ∧ (keys bfsSample.nodes).length < 9 ∧ ∀ n, bfsSample.Covers (.str "s") n → bfsSample.FreqtReady false n := by
  have e : bfsSample.sortedBfsSuccessors 9 (.str "s") = .ok [(.str "s", [.str "np", .str "vp"]), (.str "np", [.str "t0"]), (.str "vp", [.str "t1"])] := by
    unfold sortedBfsSuccessors
    rw [bfsSample_edges]
    decide +kernel
  refine ⟨_, e, by decide +kernel, ?_⟩
  intro n hn
  have hm : n ∈ [NodeId.str "s", .str "np", .str "vp", .str "t0", .str "t1"] := by
    rcases Relation.ReflTransGen.cases_tail hn with e | ⟨b, _, k, hb⟩
    · rw [e]; decide
    · have := bfsSample_dominates hb
      simp only [List.mem_cons, Prod.mk.injEq, List.not_mem_nil, or_false] at this
      rcases this with ⟨_, rfl, _⟩ | ⟨_, rfl, _⟩ | ⟨_, rfl, _⟩ | ⟨_, rfl, _⟩ <;> decide
  simp only [List.mem_cons, List.not_mem_nil, or_false] at hm
  rcases hm with rfl | rfl | rfl | rfl | rfl
  · exact .inr ⟨by decide +kernel, "S", .inl (by decide +kernel)⟩
  · exact .inr ⟨by decide +kernel, "NP", .inl (by decide +kernel)⟩
  · exact .inr ⟨by decide +kernel, "VP", .inl (by decide +kernel)⟩
  · exact .inl ⟨"she", by decide +kernel, by simp⟩
  · exact .inl ⟨"(sings)", by decide +kernel, by simp⟩

/-- **C30 (file)**.  The FREQT string of a whole document consists of the strings of its sentences, in order, joined by line breaks; if no token, tag or label contains a line break, splitting
at line breaks gives back exactly one line per sentence. -/
theorem c30_one_line_per_sentence (g : DG) (fuel : Nat) (pos : Bool) (s : List Char) (h : g.docgraph2freqt fuel pos = .ok s) :
    ∃ lines, List.Forall₂ (fun sent line => g.rootFreqt fuel pos sent = .ok line) g.sentences lines ∧ s = joinChars ['\n'] lines ∧
      (g.sentences ≠ [] → (∀ line ∈ lines, '\n' ∉ line) → splitChars '\n' s = lines) := by
  unfold docgraph2freqt at h
  cases hm : mapE (g.rootFreqt fuel pos) g.sentences with
  | error e => rw [hm] at h; simp [bind, Except.bind] at h
  | ok lines =>
    rw [hm] at h
    simp only [bind, Except.bind, Except.ok.injEq] at h
    rw [mapE_ok] at hm
    refine ⟨lines, hm, h.symm, ?_⟩
    intro hne hnl
    rw [← h]
    apply splitChars_join
    · rintro rfl; exact hne (List.forall₂_nil_right_iff.1 hm)
    · exact hnl

/-- the hypotheses of c30_one_line_per_sentence can be met -/
example : bfsSample.docgraph2freqt 9 false = .ok "(S(NP(she))(VP(-LRB-sings-RRB-)))".toList := by
  unfold docgraph2freqt
  rw [show bfsSample.sentences = [.str "s"] by decide +kernel]
  simp [mapE, bfsSample_freqt, bind, Except.bind, joinChars]

/-- A node without label and token whose ID is a number cannot be exported: its ID is used as label, and escaping it is a TypeError. -/
theorem c30_int_id_raises (g : DG) (i : Int) (hn : g.HasNode (.int i)) (h1 : g.nodeAttr (.int i) (g.ns ++ (":" ++ "token")) = none)
    (h2 : g.nodeAttr (.int i) "label" = none) (pos : Bool) (child : List Char) : g.node2freqt pos (.int i) child = .error .type := by
  obtain ⟨a, ha⟩ := hasNode_iff'.1 hn
  have ha' : find g.nodes (.int i) = some a := ha
  rw [nodeAttr_of ha'] at h1 h2
  unfold node2freqt
  have h1' : find a (qual g.ns "token") = none := h1
  simp [ha', h1', h2, idVal, freqtEsc, bind, Except.bind]

example : ((DG.init "" "a" (some (.str "r"))).run [.addNode (.int 5) (.atom .none) .none []]).HasNode (.int 5) := by decide

/-- Escaping itself loses information: a bracket and its escape sequence look alike. -/
theorem c30_escape_not_injective : withoutBrackets "(".toList = withoutBrackets "-LRB-".toList := by decide

end DG
end Dg
