import Verif.Lemmas.ConllFeats
import Verif.Props.C41

/-! The calls of the CoNLL reader. -/

namespace Dg
open Dict
namespace DG

theorem addNode_dict_one (g : DG) (n : NodeId) (ls : List String) (d : Attrs) (k : String) (v : Val) (hk : k ≠ "layers") : g.addNode n (.set (ls.map Atom.str)) (.dict d) [(k, v)] = (Instr.node n ls (put d k v)).exec g := by
  unfold Instr.exec addNode
  have : ∀ ls' e, mergeAttrArg (.dict d) [(k, v)] ls' e = mergeAttrArg .none (put d k v) ls' e := by
    intro ls' e
    unfold mergeAttrArg
    have e1 : put [(k, v)] "layers" (Val.set ls') = [(k, v), ("layers", .set ls')] := by
      simp [put, hk]
    rw [e1]
    rfl
  simp only [this]

theorem wordNode_inj {i i' : Nat} {a b : List Char} (h : wordNode i a = wordNode i' b) : i = i' ∧ a = b := by
  unfold wordNode at h
  injection h with h
  have h := String.ofList_injective h
  injection h with _ h
  obtain ⟨h1, h2⟩ := sep_cancel (underscore_decimal i) (underscore_decimal i') h
  refine ⟨decimal_injective h1, ?_⟩
  injection h2

theorem sentNode_inj {i j : Nat} (h : sentNode i = sentNode j) : i = j := by
  unfold sentNode at h
  injection h with h
  have h := String.ofList_injective h
  injection h with _ h
  exact decimal_injective h

theorem sentNode_ne_wordNode (i j : Nat) (a : List Char) : sentNode i ≠ wordNode j a := by
  intro h
  unfold sentNode wordNode at h
  injection h with h
  have h := String.ofList_injective h
  injection h with _ h
  apply underscore_decimal i
  rw [h]
  simp

theorem conllTokenId_eq (i : Nat) (w : List Char) : conllTokenId i w = wordNode i w := by
  unfold conllTokenId wordNode
  simp

theorem idAtom_eq (n : NodeId) : appendSentToken.idAtom n = tokenAtom n := by cases n <;> rfl

/-! ### the script -/

/-- attributes of a dependency edge -/
def depAttrs (rel : List Char) : Attrs := [("relation_type", strVal rel), ("label", strVal rel), ("edge_type", .atom (.str "dominates"))]

/-- calls for a token -/
def tokenScript (ns : String) (i : Nat) (before : List NodeId) (x : CoWord) : List Instr :=
  [.node (wordNode i x.id) [ns, qual ns "token"] (put x.attrs "sent_pos" (.atom (.int i))), .token (wordNode i x.id), .attr (sentNode i) "tokens" (.list ((before ++ [wordNode i x.id]).map tokenAtom))]

/-- calls for a dependency -/
def depScript (ns : String) (i : Nat) (seen : List NodeId) (x : CoWord) : List Instr :=
  (if x.head = ['0'] ∨ headNode i x ∈ seen then [] else [.node (headNode i x) [ns] []]) ++ [.edge (headNode i x) (wordNode i x.id) [ns, qual ns "dependency"] (depAttrs x.rel)]

/-- calls for the words of a sentence -/
def wordsScript (ns : String) (i : Nat) : List NodeId → List NodeId → List CoWord → List Instr
  | _, _, [] => []
  | before, seen, x :: xs => tokenScript ns i before x ++ depScript ns i (wordNode i x.id :: seen) x ++ wordsScript ns i (before ++ [wordNode i x.id]) (headNode i x :: wordNode i x.id :: seen) xs

/-- calls for a sentence node -/
def sentScript (ns : String) (r : NodeId) (i : Nat) : List Instr :=
  [.node (sentNode i) [ns, qual ns "sentence"] [("tokens", .list [])], .edge r (sentNode i) [ns, qual ns "sentence"] (edgeType "dominates"), .sentence (sentNode i)]

/-- nodes of a sentence -/
def sentNodes (i : Nat) (xs : List CoWord) : List NodeId := sentNode i :: xs.flatMap (fun x => [headNode i x, wordNode i x.id])

/-- calls for all sentences -/
def sentsScript (ns : String) (r : NodeId) : Nat → List NodeId → List (List CoWord) → List Instr
  | _, _, [] => []
  | i, seen, xs :: xss => sentScript ns r i ++ wordsScript ns i [] (sentNode i :: seen) xs ++ sentsScript ns r (i + 1) (sentNodes i xs ++ seen) xss

/-- the columns of the word are as described -/
structure Resolved (cfg : ConllCfg) (w : Dict String (List Char)) (x : CoWord) : Prop where
  id : find w "word_id" = some x.id
  head : find w cfg.headAttr = some x.head
  rel : find w cfg.deprelAttr = some x.rel
  attrs : conllFeats cfg w = .ok x.attrs
  keys : (keys x.attrs).Nodup

/-- the state of the reader -/
structure ReadState (ns : String) (r : NodeId) (seen : List NodeId) (g : DG) : Prop where
  inv : Inv g
  layered : NodesLayered False g
  ns : g.ns = ns
  root : g.root = r
  nodes : ∀ m, g.HasNode m ↔ m ∈ seen

theorem ReadState.next {ns : String} {r : NodeId} {seen seen' : List NodeId} {g g' : DG} {s : List Instr} (h : ReadState ns r seen g) (hb : Built g s g') (hs : ∀ m, m ∈ seen' ↔ m ∈ seen ∨ ∃ i ∈ s, i.Mentions m) : ReadState ns r seen' g' :=
  ⟨hb.inv, hb.layered, hb.ns.trans h.ns, hb.root.trans h.root, fun m => by rw [hb.nodes, hs, h.nodes]⟩

theorem sentenceTokens_next {g g' : DG} {s : List Instr} {n : NodeId} {ts : List NodeId} (hb : Built g s g') (h : g.SentenceTokens n ts) (hs : ∀ i ∈ s, i.write n "tokens" = none) : g'.SentenceTokens n ts := by
  unfold SentenceTokens
  rw [hb.attr n "tokens" (by decide), lastWrite_none hs]
  exact h

theorem conllAddToken_eq {cfg : ConllCfg} {w : Dict String (List Char)} {x : CoWord} (hx : Resolved cfg w x) {i : Nat} {seen before : List NodeId} {r : NodeId} {g : DG} (hg : ReadState cfg.ns r seen g)
    (ht : g.SentenceTokens (sentNode i) before) : g.conllAddToken cfg i w = execs g (tokenScript cfg.ns i before x) ∧ ScriptOk g.HasNode (tokenScript cfg.ns i before x) := by
  have hs : g.HasNode (sentNode i) := by
    rw [hasNode_some]
    unfold SentenceTokens nodeAttr at ht
    cases h : g.nodeAttrs (sentNode i) with
    | none => rw [h] at ht; cases ht
    | some a => exact ⟨a, rfl⟩
  have hok1 : (Instr.node (wordNode i x.id) [cfg.ns, qual cfg.ns "token"] (put x.attrs "sent_pos" (.atom (.int i)))).Ok g.HasNode := ⟨by simp, nodup_put hx.keys _ _⟩
  constructor
  · obtain ⟨g1, e1, b1⟩ := exec_built hg.inv hg.layered _ hok1
    unfold conllAddToken wordField
    rw [hx.id, hx.attrs]
    simp only [bind, Except.bind]
    rw [conllTokenId_eq]
    have e2 : g.addNode (wordNode i x.id) (.set [.str g.ns, .str (qual g.ns "token")]) (.dict x.attrs) [("sent_pos", .atom (.int i))] = .ok g1 := by
      have := addNode_dict_one g (wordNode i x.id) [cfg.ns, qual cfg.ns "token"] x.attrs "sent_pos" (.atom (.int i)) (by decide)
      rw [hg.ns]
      exact this.trans e1
    rw [e2]
    simp only
    unfold appendSentToken
    have e3 : ({ g1 with tokens := g1.tokens ++ [wordNode i x.id] } : DG).getAttr (conllSentId i) "tokens" = .ok (.list (before.map tokenAtom)) := by
      rw [getAttr_ok]
      have h1 : g1.SentenceTokens (sentNode i) before := sentenceTokens_next b1 ht (by intro j hj; obtain rfl := List.mem_singleton.1 hj; simp [Instr.write, sentNode_ne_wordNode])
      exact h1
    rw [e3]
    simp only [bind, Except.bind]
    unfold tokenScript
    rw [execs_cons, e1]
    show _ = execs g1 _
    rw [execs_cons]
    show _ = execs ({ g1 with tokens := g1.tokens ++ [wordNode i x.id] } : DG) _
    rw [execs_one, idAtom_eq, List.map_append]
    rfl
  · exact ⟨hok1, trivial, ⟨.inl (.inl hs), by decide⟩, trivial⟩

theorem conllAddDependency_eq {cfg : ConllCfg} {w : Dict String (List Char)} {x : CoWord} (hx : Resolved cfg w x) {i : Nat} {seen : List NodeId} {r : NodeId} {g : DG} (hg : ReadState cfg.ns r seen g) :
    g.conllAddDependency cfg i w = execs g (depScript cfg.ns i seen x) ∧ ScriptOk g.HasNode (depScript cfg.ns i seen x) := by
  have hn : (keys (depAttrs x.rel)).Nodup := by simp [depAttrs, keys]
  constructor
  · unfold conllAddDependency wordField
    rw [hx.head, hx.rel]
    simp only [bind, Except.bind]
    unfold conllSource depScript headNode
    by_cases h0 : x.head = ['0']
    · rw [if_pos h0, if_pos h0, if_pos (.inl h0)]
      simp only [pure, Except.pure]
      rw [hx.id]
      simp only
      rw [conllTokenId_eq, List.nil_append, execs_one, hg.ns]
      rfl
    · rw [if_neg h0, if_neg h0, conllTokenId_eq]
      by_cases hh : wordNode i x.head ∈ seen
      · rw [if_pos ((has_iff _ _).2 ((hg.nodes _).2 hh)), if_pos (.inr hh)]
        simp only [pure, Except.pure]
        rw [hx.id]
        simp only
        rw [conllTokenId_eq, List.nil_append, execs_one, hg.ns]
        rfl
      · rw [if_neg (fun e => hh ((hg.nodes _).1 ((has_iff _ _).1 e))), if_neg (fun e => e.elim h0 hh)]
        simp only [bind, Except.bind]
        rw [List.singleton_append, execs_cons, hg.ns]
        show _ = (g.addNode (wordNode i x.head) (.set [.str cfg.ns]) .none [] >>= _)
        cases he : g.addNode (wordNode i x.head) (.set [.str cfg.ns]) .none [] with
        | error e => rfl
        | ok g1 =>
          have m := exec_ns_root (i := .node (wordNode i x.head) [cfg.ns] []) (g := g) (g' := g1) he
          simp only [pure, Except.pure]
          rw [hx.id]
          simp only
          rw [conllTokenId_eq]
          show _ = execs g1 _
          rw [execs_one, m.1, hg.ns]
          rfl
  · unfold depScript
    split
    · exact ⟨⟨by simp, hn⟩, trivial⟩
    · exact ⟨⟨by simp, by simp [keys]⟩, ⟨by simp, hn⟩, trivial⟩

theorem mentions_depScript {ns : String} {i : Nat} {seen : List NodeId} {x : CoWord} {m : NodeId} : (∃ j ∈ depScript ns i seen x, j.Mentions m) ↔ m = headNode i x ∨ m = wordNode i x.id := by
  unfold depScript
  constructor
  · rintro ⟨j, hj, hm⟩
    rw [List.mem_append] at hj
    rcases hj with hj | hj
    · split at hj
      · cases hj
      · obtain rfl := List.mem_singleton.1 hj
        exact .inl hm
    · obtain rfl := List.mem_singleton.1 hj
      exact hm
  · intro h
    exact ⟨_, List.mem_append_right _ (List.mem_singleton.2 rfl), h⟩

theorem mentions_tokenScript {ns : String} {i : Nat} {before : List NodeId} {x : CoWord} {m : NodeId} : (∃ j ∈ tokenScript ns i before x, j.Mentions m) ↔ m = wordNode i x.id := by
  unfold tokenScript
  simp [Instr.Mentions]

theorem scriptOk_step {g g' : DG} {s s' : List Instr} (h1 : ScriptOk g.HasNode s) (hb : Built g s g') (h2 : ScriptOk g'.HasNode s') : ScriptOk g.HasNode (s ++ s') := by
  rw [scriptOk_append]
  exact ⟨h1, scriptOk_congr (fun m => by rw [hb.nodes]) h2⟩

theorem conllWords_eq {cfg : ConllCfg} {r : NodeId} {i : Nat} : ∀ {ws : List (Dict String (List Char))} {xs : List CoWord}, List.Forall₂ (Resolved cfg) ws xs → ∀ {seen before : List NodeId} {g : DG}, ReadState cfg.ns r seen g →
    g.SentenceTokens (sentNode i) before → ws.foldlM (conllAddWord cfg i) g = execs g (wordsScript cfg.ns i before seen xs) ∧ ScriptOk g.HasNode (wordsScript cfg.ns i before seen xs) := by
  intro ws xs h
  induction h with
  | nil => intro seen before g _ _; exact ⟨rfl, trivial⟩
  | @cons w x ws xs hx _ ih =>
    intro seen before g hg ht
    obtain ⟨e1, o1⟩ := conllAddToken_eq hx hg ht
    obtain ⟨g1, x1, b1⟩ := execs_built _ hg.inv hg.layered o1
    have hg1 : ReadState cfg.ns r (wordNode i x.id :: seen) g1 := hg.next b1 (fun m => by rw [mentions_tokenScript, List.mem_cons, or_comm])
    have ht1 : g1.SentenceTokens (sentNode i) (before ++ [wordNode i x.id]) := by
      unfold SentenceTokens
      rw [b1.attr _ _ (by decide)]
      unfold tokenScript
      simp [lastWrite, Instr.write]
    obtain ⟨e2, o2⟩ := conllAddDependency_eq (i := i) hx hg1
    obtain ⟨g2, x2, b2⟩ := execs_built _ hg1.inv hg1.layered o2
    have hg2 : ReadState cfg.ns r (headNode i x :: wordNode i x.id :: seen) g2 := hg1.next b2 (fun m => by
      rw [mentions_depScript]
      simp only [List.mem_cons]
      constructor
      · rintro (h | h | h)
        · exact .inr (.inl h)
        · exact .inl (.inl h)
        · exact .inl (.inr h)
      · rintro ((h | h) | h | h)
        · exact .inr (.inl h)
        · exact .inr (.inr h)
        · exact .inl h
        · exact .inr (.inl h))
    have ht2 : g2.SentenceTokens (sentNode i) (before ++ [wordNode i x.id]) := by
      refine sentenceTokens_next b2 ht1 ?_
      intro j hj
      unfold depScript at hj
      rw [List.mem_append] at hj
      rcases hj with hj | hj
      · split at hj
        · cases hj
        · obtain rfl := List.mem_singleton.1 hj
          simp [Instr.write, find]
      · obtain rfl := List.mem_singleton.1 hj
        rfl
    obtain ⟨e3, o3⟩ := ih hg2 ht2
    constructor
    · rw [List.foldlM_cons]
      show ((g.conllAddToken cfg i w >>= fun g1 => g1.conllAddDependency cfg i w) >>= _) = _
      unfold wordsScript
      rw [List.append_assoc, execs_append, e1, x1]
      show (g1.conllAddDependency cfg i w >>= _) = execs g1 _
      rw [execs_append, e2, x2]
      exact e3
    · unfold wordsScript
      rw [List.append_assoc]
      exact scriptOk_step o1 b1 (scriptOk_step o2 b2 o3)

theorem mentions_wordsScript {ns : String} {i : Nat} {m : NodeId} : ∀ {xs : List CoWord} {before seen : List NodeId}, (∃ j ∈ wordsScript ns i before seen xs, j.Mentions m) ↔ m ∈ xs.flatMap (fun x => [headNode i x, wordNode i x.id])
  | [], before, seen => by simp [wordsScript]
  | x :: xs, before, seen => by
    have ih := mentions_wordsScript (ns := ns) (i := i) (m := m) (xs := xs) (before := before ++ [wordNode i x.id]) (seen := headNode i x :: wordNode i x.id :: seen)
    have h1 := mentions_tokenScript (ns := ns) (i := i) (before := before) (x := x) (m := m)
    have h2 := mentions_depScript (ns := ns) (i := i) (seen := wordNode i x.id :: seen) (x := x) (m := m)
    unfold wordsScript
    rw [List.flatMap_cons, List.mem_append, ← ih]
    constructor
    · rintro ⟨j, hj, hm⟩
      rcases List.mem_append.1 hj with hj | hj
      · left
        rcases List.mem_append.1 hj with hj | hj
        · rw [h1.1 ⟨j, hj, hm⟩]; simp
        · rcases h2.1 ⟨j, hj, hm⟩ with e | e <;> rw [e] <;> simp
      · exact .inr ⟨j, hj, hm⟩
    · rintro (h | ⟨j, hj, hm⟩)
      · have h : m = headNode i x ∨ m = wordNode i x.id := by simpa using h
        obtain ⟨j, hj, hm⟩ := h2.2 h
        exact ⟨j, by simp [hj], hm⟩
      · exact ⟨j, by simp [hj], hm⟩

theorem conllAddSentence_eq {ns : String} {r : NodeId} {seen : List NodeId} {g : DG} (hg : ReadState ns r seen g) (i : Nat) :
    g.conllAddSentence i = execs g (sentScript ns r i) ∧ ScriptOk g.HasNode (sentScript ns r i) := by
  constructor
  · unfold conllAddSentence sentScript
    rw [execs_cons, hg.ns]
    show (g.addNode (sentNode i) (.set [.str ns, .str (qual ns "sentence")]) .none [("tokens", .list [])] >>= _) = (g.addNode (sentNode i) (.set [.str ns, .str (qual ns "sentence")]) .none [("tokens", .list [])] >>= _)
    cases he : g.addNode (sentNode i) (.set [.str ns, .str (qual ns "sentence")]) .none [("tokens", .list [])] with
    | error e => rfl
    | ok g1 =>
      have m := exec_ns_root (i := .node (sentNode i) [ns, qual ns "sentence"] [("tokens", .list [])]) (g := g) (g' := g1) he
      show (g1.addEdge g1.root (conllSentId i) _ none .none _ >>= _) = execs g1 _
      rw [m.1, m.2, hg.ns, hg.root, execs_cons]
      show (g1.addEdge r (sentNode i) (.set [.str ns, .str (qual ns "sentence")]) none .none (edgeType "dominates") >>= _) = (g1.addEdge r (sentNode i) (.set [.str ns, .str (qual ns "sentence")]) none .none (edgeType "dominates") >>= _)
      cases he2 : g1.addEdge r (sentNode i) (.set [.str ns, .str (qual ns "sentence")]) none .none (edgeType "dominates") with
      | error e => rfl
      | ok g2 => rfl
  · exact ⟨⟨by simp, by simp [keys]⟩, ⟨by simp, by simp [keys, edgeType]⟩, trivial, trivial⟩

theorem foldlM_lines {cfg : ConllCfg} {i : Nat} : ∀ (ls : List (List Char)) (ws : List (Dict String (List Char))) (os : List (Option (Dict String (List Char)))), List.Forall₂ (fun l o => conllLine cfg l = .ok o) ls os → os.filterMap id = ws →
    ∀ g : DG, ls.foldlM (conllAddLine cfg i) g = ws.foldlM (conllAddWord cfg i) g := by
  intro ls ws os h
  induction h generalizing ws with
  | nil => rintro rfl g; rfl
  | @cons l o ls os hl _ ih =>
    intro hw g
    rw [List.foldlM_cons]
    cases o with
    | none =>
      have : conllAddLine cfg i g l = .ok g := by unfold conllAddLine; rw [hl]; rfl
      rw [this]
      exact ih ws (by simpa using hw) g
    | some w =>
      have : conllAddLine cfg i g l = conllAddWord cfg i g w := by unfold conllAddLine; rw [hl]; rfl
      rw [this]
      have hw : ws = w :: os.filterMap id := by rw [← hw]; simp
      subst hw
      rw [List.foldlM_cons]
      cases conllAddWord cfg i g w with
      | error e => rfl
      | ok g1 => exact ih _ rfl g1

/-- the lines of a sentence parse to the given words -/
def ParsesTo (cfg : ConllCfg) (s : List Char) (ws : List (Dict String (List Char))) : Prop :=
  ∃ os, List.Forall₂ (fun l o => conllLine cfg l = .ok o) (splitChars '\n' s) os ∧ os.filterMap id = ws

theorem conllSentences_eq {cfg : ConllCfg} {r : NodeId} : ∀ {ss : List (List Char)} {wss : List (List (Dict String (List Char)))} {xss : List (List CoWord)}, List.Forall₂ (ParsesTo cfg) ss wss →
    List.Forall₂ (List.Forall₂ (Resolved cfg)) wss xss → ∀ {i : Nat} {seen : List NodeId} {g : DG}, ReadState cfg.ns r seen g → r ∈ seen →
    conllAddSentences cfg i ss g = execs g (sentsScript cfg.ns r i seen xss) ∧ ScriptOk g.HasNode (sentsScript cfg.ns r i seen xss) := by
  intro ss wss xss h
  induction h generalizing xss with
  | nil => intro h; cases h; intro i seen g _ _; exact ⟨rfl, trivial⟩
  | @cons s ws ss wss hs _ ih =>
    intro h
    cases h with
    | @cons _ xs _ xss hws hwss =>
      intro i seen g hg hrs
      obtain ⟨e1, o1⟩ := conllAddSentence_eq hg i
      obtain ⟨g1, x1, b1⟩ := execs_built _ hg.inv hg.layered o1
      have hg1 : ReadState cfg.ns r (sentNode i :: seen) g1 := hg.next b1 (fun m => by
        simp only [sentScript, List.mem_cons, List.not_mem_nil, or_false, exists_eq_or_imp, Instr.Mentions, exists_eq_left]
        constructor
        · rintro (h | h)
          · exact .inr (.inl h)
          · exact .inl h
        · rintro (h | h | h)
          · exact .inr h
          · exact .inl h
          · rcases h with h | h
            · exact .inr (h ▸ hrs)
            · exact .inl h)
      have ht1 : g1.SentenceTokens (sentNode i) [] := by
        unfold SentenceTokens
        rw [b1.attr _ _ (by decide)]
        simp [sentScript, lastWrite, Instr.write, find]
      obtain ⟨e2, o2⟩ := conllWords_eq hws hg1 ht1
      obtain ⟨g2, x2, b2⟩ := execs_built _ hg1.inv hg1.layered o2
      have hg2 : ReadState cfg.ns r (sentNodes i xs ++ seen) g2 := hg1.next b2 (fun m => by
        rw [mentions_wordsScript]
        unfold sentNodes
        simp only [List.mem_append, List.mem_cons]
        constructor
        · rintro ((h | h) | h)
          · exact .inl (.inl h)
          · exact .inr h
          · exact .inl (.inr h)
        · rintro ((h | h) | h)
          · exact .inl (.inl h)
          · exact .inr h
          · exact .inl (.inr h))
      obtain ⟨e3, o3⟩ := ih hwss (i := i + 1) hg2 (List.mem_append_right _ hrs)
      constructor
      · unfold conllAddSentences sentsScript
        rw [List.append_assoc, execs_append, e1, x1]
        show ((splitChars '\n' s).foldlM (conllAddLine cfg i) g1 >>= _) = execs g1 _
        obtain ⟨os, ho1, ho2⟩ := hs
        rw [foldlM_lines _ ws os ho1 ho2, e2, execs_append, x2]
        exact e3
      · unfold sentsScript
        rw [List.append_assoc]
        exact scriptOk_step o1 b1 (scriptOk_step o2 b2 o3)

end DG
end Dg
