import Verif.Spec.Conano
import Verif.Lemmas.AnaphoricityRead
import Verif.Lemmas.Dis

namespace Dg
open Dict
namespace DG

/-- the calls for the items of a document; `n` = number of the next token -/
def conanoScript (ns : String) : Nat → List CStep → List Instr
  | _, [] => []
  | n, .elem p id ls :: r => .node (.str id) ls [] :: .edge p (.str id) [ns] (edgeType "dominates") :: conanoScript ns n r
  | n, .word p w :: r => .node (conanoTokenId n) [ns, qual ns "token"] [(qual ns "token", strVal w)] :: .edge p (conanoTokenId n) [ns] (edgeType "spans") :: .token (conanoTokenId n) :: conanoScript ns (n + 1) r

theorem wordsOf_append (a b : List CStep) : wordsOf (a ++ b) = wordsOf a ++ wordsOf b := List.filterMap_append

theorem wordsOf_map (p : NodeId) (ws : List (List Char)) : wordsOf (ws.map (CStep.word p)) = ws.map (fun w => (p, w)) := by
  induction ws with
  | nil => rfl
  | cons w ws ih =>
    rw [List.map_cons, List.map_cons, ← ih]
    rfl

theorem conanoScript_append (ns : String) : ∀ (a b : List CStep) (n : Nat), conanoScript ns n (a ++ b) = conanoScript ns n a ++ conanoScript ns (n + (wordsOf a).length) b
  | [], b, n => rfl
  | .elem p id ls :: a, b, n => by
    rw [List.cons_append, conanoScript, conanoScript, conanoScript_append ns a b n]
    rfl
  | .word p w :: a, b, n => by
    rw [List.cons_append, conanoScript, conanoScript, conanoScript_append ns a b (n + 1)]
    have : (wordsOf (.word p w :: a)).length = (wordsOf a).length + 1 := rfl
    rw [this, show n + ((wordsOf a).length + 1) = n + 1 + (wordsOf a).length by omega]
    rfl

/-- graph and counter after the calls -/
def stepped (ns : String) (st : DG × Nat) (s : List CStep) : Except PyErr (DG × Nat) := do
  let g ← execs st.1 (conanoScript ns st.2 s)
  return (g, st.2 + (wordsOf s).length)

theorem stepped_append (ns : String) (st : DG × Nat) (a b : List CStep) : stepped ns st (a ++ b) = stepped ns st a >>= fun st => stepped ns st b := by
  unfold stepped
  rw [conanoScript_append, execs_append]
  cases execs st.1 (conanoScript ns st.2 a) with
  | error e => rfl
  | ok g =>
    show (execs g _ >>= _) = (execs g _ >>= _)
    rw [wordsOf_append, List.length_append, Nat.add_assoc]

theorem stepped_ns {ns : String} {st st' : DG × Nat} {s : List CStep} (h : stepped ns st s = .ok st') : st'.1.ns = st.1.ns ∧ st'.1.root = st.1.root := by
  unfold stepped at h
  cases h1 : execs st.1 (conanoScript ns st.2 s) with
  | error e => rw [h1] at h; cases h
  | ok g =>
    rw [h1] at h
    obtain rfl := Except.ok.inj h
    exact execs_ns_root _ h1

theorem conanoAddToken_eq {ns : String} {st : DG × Nat} (h : st.1.ns = ns) (p : NodeId) (w : List Char) : conanoAddToken p st w = stepped ns st [.word p w] := by
  unfold conanoAddToken stepped
  rw [conanoScript, execs_cons]
  have e := addNode_dict st.1 (conanoTokenId st.2) [ns, qual ns "token"] [(qual ns "token", strVal w)]
  rw [h]
  show (st.1.addNode (conanoTokenId st.2) (.set ([ns, qual ns "token"].map Atom.str)) (.dict [(qual ns "token", strVal w)]) [] >>= _) = _
  rw [e]
  cases h1 : (Instr.node (conanoTokenId st.2) [ns, qual ns "token"] [(qual ns "token", strVal w)]).exec st.1 with
  | error _ => rfl
  | ok g1 =>
    have m := exec_ns_root h1
    show (g1.addEdge p (conanoTokenId st.2) (.set [.str g1.ns]) none .none [("edge_type", .atom (.str "spans"))] >>= _) = (execs g1 _ >>= _)
    rw [m.1, h, execs_cons]
    show ((Instr.edge p (conanoTokenId st.2) [ns] (edgeType "spans")).exec g1 >>= _) = _
    cases (Instr.edge p (conanoTokenId st.2) [ns] (edgeType "spans")).exec g1 <;> rfl

theorem conanoAddTokens_eq {ns : String} (p : NodeId) : ∀ (ws : List (List Char)) {st : DG × Nat}, st.1.ns = ns → ws.foldlM (conanoAddToken p) st = stepped ns st (ws.map (CStep.word p))
  | [], st, _ => rfl
  | w :: ws, st, h => by
    rw [List.foldlM_cons, List.map_cons, show CStep.word p w :: ws.map (CStep.word p) = [CStep.word p w] ++ ws.map (CStep.word p) from rfl, stepped_append, conanoAddToken_eq h]
    cases h1 : stepped ns st [.word p w] with
    | error _ => rfl
    | ok st1 => exact conanoAddTokens_eq p ws ((stepped_ns h1).1.trans h)

mutual
/-- reading an element makes the calls for its items -/
theorem conanoElem_eq {ns : String} : ∀ (e : CElem) (up : Option (Dict String String)) (p : NodeId) (t : CTree) (st : DG × Nat), st.1.ns = ns → e.resolve ns up = .ok t → conanoElem up p e st = stepped ns st (t.steps p)
  | .elem tag a text kids tail, up, p, t, st, h, hr => by
    unfold CElem.resolve at hr
    cases hi : conanoId ns tag a up with
    | error _ => rw [hi] at hr; cases hr
    | ok r =>
      rw [hi] at hr
      obtain ⟨id, ls⟩ := r
      cases hk : CElem.resolveAll ns (some a) kids with
      | error _ => rw [show ((Except.ok (id, ls) : Except PyErr _) >>= fun r => CElem.resolveAll ns (some a) kids >>= fun ks => pure (CTree.node r.1 r.2 text ks tail)) = (CElem.resolveAll ns (some a) kids >>= fun ks => pure (CTree.node id ls text ks tail)) from rfl, hk] at hr; cases hr
      | ok ks =>
        rw [show ((Except.ok (id, ls) : Except PyErr _) >>= fun r => CElem.resolveAll ns (some a) kids >>= fun ks => pure (CTree.node r.1 r.2 text ks tail)) = (CElem.resolveAll ns (some a) kids >>= fun ks => pure (CTree.node id ls text ks tail)) from rfl, hk] at hr
        obtain rfl := Except.ok.inj hr
        unfold conanoElem CTree.steps
        rw [h, hi]
        show (st.1.addNode (.str id) (.set (ls.map Atom.str)) .none [] >>= _) = _
        rw [show CStep.elem p id ls :: ((splitWs text).map (CStep.word (.str id)) ++ CTree.stepsAll (.str id) ks ++ (splitWs tail).map (CStep.word p)) =
          [CStep.elem p id ls] ++ ((splitWs text).map (CStep.word (.str id)) ++ (CTree.stepsAll (.str id) ks ++ (splitWs tail).map (CStep.word p))) by simp]
        rw [stepped_append]
        have e1 : stepped ns st [.elem p id ls] = ((Instr.node (.str id) ls []).exec st.1 >>= fun g => (Instr.edge p (.str id) [ns] (edgeType "dominates")).exec g >>= fun g => pure (g, st.2)) := by
          unfold stepped
          rw [conanoScript, execs_cons]
          cases (Instr.node (.str id) ls []).exec st.1 with
          | error _ => rfl
          | ok g1 =>
            show (execs g1 [_] >>= _) = ((Instr.edge p (.str id) [ns] (edgeType "dominates")).exec g1 >>= _)
            rw [execs_one]
            rfl
        rw [e1]
        show ((Instr.node (.str id) ls []).exec st.1 >>= _) = _
        cases h1 : (Instr.node (.str id) ls []).exec st.1 with
        | error _ => rfl
        | ok g1 =>
          have m1 := exec_ns_root h1
          show (g1.addEdge p (.str id) (.set [.str g1.ns]) none .none [("edge_type", .atom (.str "dominates"))] >>= _) = (((Instr.edge p (.str id) [ns] (edgeType "dominates")).exec g1 >>= fun g => pure (g, st.2)) >>= _)
          rw [m1.1, h]
          show ((Instr.edge p (.str id) [ns] (edgeType "dominates")).exec g1 >>= _) = _
          cases h2 : (Instr.edge p (.str id) [ns] (edgeType "dominates")).exec g1 with
          | error _ => rfl
          | ok g2 =>
            have m2 := exec_ns_root h2
            have hg2 : g2.ns = ns := m2.1.trans (m1.1.trans h)
            show ((splitWs text).foldlM (conanoAddToken (.str id)) (g2, st.2) >>= _) = stepped ns (g2, st.2) _
            rw [conanoAddTokens_eq _ _ hg2, stepped_append]
            cases h3 : stepped ns (g2, st.2) ((splitWs text).map (CStep.word (.str id))) with
            | error _ => rfl
            | ok st1 =>
              have m3 := (stepped_ns h3).1.trans hg2
              show (conanoElems (some a) (.str id) kids st1 >>= _) = stepped ns st1 _
              rw [conanoElems_eq kids (some a) (.str id) ks st1 m3 hk, stepped_append]
              cases h4 : stepped ns st1 (CTree.stepsAll (.str id) ks) with
              | error _ => rfl
              | ok st2 => exact conanoAddTokens_eq p _ ((stepped_ns h4).1.trans m3)
/-- reading a list of elements makes the calls for their items -/
theorem conanoElems_eq {ns : String} : ∀ (es : List CElem) (up : Option (Dict String String)) (p : NodeId) (ts : List CTree) (st : DG × Nat), st.1.ns = ns → CElem.resolveAll ns up es = .ok ts →
    conanoElems up p es st = stepped ns st (CTree.stepsAll p ts)
  | [], up, p, ts, st, _, hr => by
    unfold CElem.resolveAll at hr
    obtain rfl := Except.ok.inj hr
    rfl
  | e :: es, up, p, ts, st, h, hr => by
    unfold CElem.resolveAll at hr
    cases h1 : e.resolve ns up with
    | error _ => rw [h1] at hr; cases hr
    | ok t =>
      rw [h1] at hr
      cases h2 : CElem.resolveAll ns up es with
      | error _ => rw [show ((Except.ok t : Except PyErr _) >>= fun t => CElem.resolveAll ns up es >>= fun ts => pure (t :: ts)) = (CElem.resolveAll ns up es >>= fun ts => pure (t :: ts)) from rfl, h2] at hr; cases hr
      | ok ts' =>
        rw [show ((Except.ok t : Except PyErr _) >>= fun t => CElem.resolveAll ns up es >>= fun ts => pure (t :: ts)) = (CElem.resolveAll ns up es >>= fun ts => pure (t :: ts)) from rfl, h2] at hr
        obtain rfl := Except.ok.inj hr
        unfold conanoElems CTree.stepsAll
        rw [conanoElem_eq e up p t st h h1, stepped_append]
        cases h3 : stepped ns st (t.steps p) with
        | error _ => rfl
        | ok st1 => exact conanoElems_eq es up p ts' st1 ((stepped_ns h3).1.trans h) h2
end

theorem foldlM_ns {p : NodeId} {ws : List (List Char)} {st st' : DG × Nat} (h : ws.foldlM (conanoAddToken p) st = .ok st') : st'.1.ns = st.1.ns := by
  rw [conanoAddTokens_eq p ws rfl] at h
  exact (stepped_ns h).1

mutual
/-- if an attribute is missing, reading fails -/
theorem conanoElem_fails {ns : String} : ∀ (e : CElem) (up : Option (Dict String String)) (p : NodeId) (st st' : DG × Nat), st.1.ns = ns → conanoElem up p e st = .ok st' → ∃ t, e.resolve ns up = .ok t
  | .elem tag a text kids tail, up, p, st, st', h, hr => by
    unfold conanoElem at hr
    unfold CElem.resolve
    rw [h] at hr
    cases hi : conanoId ns tag a up with
    | error _ => rw [hi] at hr; cases hr
    | ok r =>
      obtain ⟨id, ls⟩ := r
      rw [hi] at hr
      change (st.1.addNode (.str id) (.set (ls.map Atom.str)) .none [] >>= _) = _ at hr
      cases h1 : (Instr.node (.str id) ls []).exec st.1 with
      | error _ => rw [show st.1.addNode (.str id) (.set (ls.map Atom.str)) .none [] = _ from h1] at hr; cases hr
      | ok g1 =>
        rw [show st.1.addNode (.str id) (.set (ls.map Atom.str)) .none [] = _ from h1] at hr
        have m1 := exec_ns_root h1
        change (g1.addEdge p (.str id) (.set [.str g1.ns]) none .none [("edge_type", .atom (.str "dominates"))] >>= _) = _ at hr
        rw [m1.1, h] at hr
        cases h2 : (Instr.edge p (.str id) [ns] (edgeType "dominates")).exec g1 with
        | error _ => rw [show g1.addEdge p (.str id) (.set [.str ns]) none .none [("edge_type", .atom (.str "dominates"))] = _ from h2] at hr; cases hr
        | ok g2 =>
          rw [show g1.addEdge p (.str id) (.set [.str ns]) none .none [("edge_type", .atom (.str "dominates"))] = _ from h2] at hr
          have hg2 : g2.ns = ns := (exec_ns_root h2).1.trans (m1.1.trans h)
          change ((splitWs text).foldlM (conanoAddToken (.str id)) (g2, st.2) >>= _) = _ at hr
          cases h3 : (splitWs text).foldlM (conanoAddToken (.str id)) (g2, st.2) with
          | error _ => rw [h3] at hr; cases hr
          | ok st1 =>
            rw [h3] at hr
            have m3 := (foldlM_ns h3).trans hg2
            change (conanoElems (some a) (.str id) kids st1 >>= _) = _ at hr
            cases h4 : conanoElems (some a) (.str id) kids st1 with
            | error _ => rw [h4] at hr; cases hr
            | ok st2 =>
              obtain ⟨ts, hts⟩ := conanoElems_fails kids (some a) (.str id) st1 st2 m3 h4
              refine ⟨.node id ls text ts tail, ?_⟩
              show (CElem.resolveAll ns (some a) kids >>= fun ks => pure (CTree.node id ls text ks tail)) = _
              rw [hts]
              rfl
/-- if an attribute is missing, reading fails -/
theorem conanoElems_fails {ns : String} : ∀ (es : List CElem) (up : Option (Dict String String)) (p : NodeId) (st st' : DG × Nat), st.1.ns = ns → conanoElems up p es st = .ok st' → ∃ ts, CElem.resolveAll ns up es = .ok ts
  | [], _, _, _, _, _, _ => ⟨[], by unfold CElem.resolveAll; rfl⟩
  | e :: es, up, p, st, st', h, hr => by
    unfold conanoElems at hr
    cases h1 : conanoElem up p e st with
    | error _ => rw [h1] at hr; cases hr
    | ok st1 =>
      rw [h1] at hr
      obtain ⟨t, ht⟩ := conanoElem_fails e up p st st1 h h1
      have m := (stepped_ns ((conanoElem_eq e up p t st h ht).symm.trans h1)).1.trans h
      obtain ⟨ts, hts⟩ := conanoElems_fails es up p st1 st' m hr
      refine ⟨t :: ts, ?_⟩
      unfold CElem.resolveAll
      rw [ht, hts]
      rfl
end

/-- the calls for the items of a document, in terms of the items -/
theorem mem_conanoScript {ns : String} {i : Instr} : ∀ (s : List CStep) (n : Nat), i ∈ conanoScript ns n s ↔
    (∃ p id ls, .elem p id ls ∈ s ∧ (i = .node (.str id) ls [] ∨ i = .edge p (.str id) [ns] (edgeType "dominates"))) ∨
    (∃ (j : Nat) (p : NodeId) (w : List Char), (wordsOf s)[j]? = some (p, w) ∧ (i = .node (conanoTokenId (n + j)) [ns, qual ns "token"] [(qual ns "token", strVal w)] ∨ i = .edge p (conanoTokenId (n + j)) [ns] (edgeType "spans") ∨ i = .token (conanoTokenId (n + j))))
  | [], n => by simp [conanoScript, wordsOf]
  | .elem p id ls :: s, n => by
    rw [conanoScript, List.mem_cons, List.mem_cons, mem_conanoScript s n]
    have e : wordsOf (.elem p id ls :: s) = wordsOf s := rfl
    rw [e]
    constructor
    · rintro (rfl | rfl | ⟨p', id', ls', hm, h⟩ | h)
      · exact .inl ⟨p, id, ls, by simp, .inl rfl⟩
      · exact .inl ⟨p, id, ls, by simp, .inr rfl⟩
      · exact .inl ⟨p', id', ls', List.mem_cons_of_mem _ hm, h⟩
      · exact .inr h
    · rintro (⟨p', id', ls', hm, h⟩ | h)
      · rcases List.mem_cons.1 hm with hm | hm
        · injection hm with h1 h2 h3
          subst h1 h2 h3
          rcases h with h | h
          · exact .inl h
          · exact .inr (.inl h)
        · exact .inr (.inr (.inl ⟨p', id', ls', hm, h⟩))
      · exact .inr (.inr (.inr h))
  | .word p w :: s, n => by
    rw [conanoScript, List.mem_cons, List.mem_cons, List.mem_cons, mem_conanoScript s (n + 1)]
    have e : wordsOf (.word p w :: s) = (p, w) :: wordsOf s := rfl
    rw [e]
    constructor
    · rintro (h | h | h | ⟨p', id', ls', hm, h⟩ | ⟨j, p', w', hj, h⟩)
      · exact .inr ⟨0, p, w, rfl, .inl h⟩
      · exact .inr ⟨0, p, w, rfl, .inr (.inl h)⟩
      · exact .inr ⟨0, p, w, rfl, .inr (.inr h)⟩
      · exact .inl ⟨p', id', ls', List.mem_cons_of_mem _ hm, h⟩
      · refine .inr ⟨j + 1, p', w', hj, ?_⟩
        rw [show n + (j + 1) = n + 1 + j by omega]
        exact h
    · rintro (⟨p', id', ls', hm, h⟩ | ⟨j, p', w', hj, h⟩)
      · rcases List.mem_cons.1 hm with hm | hm
        · cases hm
        · exact .inr (.inr (.inr (.inl ⟨p', id', ls', hm, h⟩)))
      · cases j with
        | zero =>
          obtain ⟨rfl, rfl⟩ := Prod.mk.inj (Option.some.inj hj)
          rcases h with h | h | h
          · exact .inl h
          · exact .inr (.inl h)
          · exact .inr (.inr (.inl h))
        | succ j =>
          rw [show n + (j + 1) = n + 1 + j by omega] at h
          exact .inr (.inr (.inr (.inr ⟨j, p', w', hj, h⟩)))

theorem conanoScript_tokens (ns : String) : ∀ (s : List CStep) (n : Nat), (conanoScript ns n s).flatMap Instr.newTokens = (List.range' n (wordsOf s).length).map conanoTokenId
  | [], n => rfl
  | .elem p id ls :: s, n => by
    rw [conanoScript, List.flatMap_cons, List.flatMap_cons, conanoScript_tokens ns s n]; rfl
  | .word p w :: s, n => by
    rw [conanoScript, List.flatMap_cons, List.flatMap_cons, List.flatMap_cons, conanoScript_tokens ns s (n + 1)]
    have e : (wordsOf (.word p w :: s)).length = (wordsOf s).length + 1 := rfl
    rw [e, List.range'_succ]
    rfl

theorem conanoScript_sentences (ns : String) (n : Nat) (s : List CStep) : (conanoScript ns n s).flatMap Instr.newSentences = [] := by
  rw [List.flatMap_eq_nil_iff]
  intro i hi
  rcases (mem_conanoScript s n).1 hi with ⟨_, _, _, _, rfl | rfl⟩ | ⟨_, _, _, _, rfl | rfl | rfl⟩ <;> rfl

theorem conanoTokenId_inj {a b : Nat} (h : conanoTokenId a = conanoTokenId b) : a = b := by
  unfold conanoTokenId at h
  injection h with h
  exact decimal_injective (List.append_cancel_left (String.ofList_injective h))

theorem conanoId_layers {ns tag : String} {a : Dict String String} {up : Option (Dict String String)} {r : String × List String} (h : conanoId ns tag a up = .ok r) : ns ∈ r.2 := by
  have hx : ∀ {d : Dict String String} {k : String} {f : String → Except PyErr (String × List String)}, (xmlAttr d k >>= f) = .ok r → ∃ v, f v = .ok r := by
    intro d k f h
    unfold xmlAttr at h
    cases hf : find d k with
    | none => rw [hf] at h; cases h
    | some v => rw [hf] at h; exact ⟨v, h⟩
  unfold conanoId at h
  split at h
  · obtain ⟨i, h⟩ := hx h
    obtain ⟨t, h⟩ := hx h
    obtain rfl := Except.ok.inj h
    simp
  · split at h
    · obtain ⟨i, h⟩ := hx h
      obtain rfl := Except.ok.inj h
      simp
    · split at h
      · obtain rfl := Except.ok.inj h
        simp
      · split at h
        · cases h
        · obtain ⟨i, h⟩ := hx h
          obtain rfl := Except.ok.inj h
          simp

end DG
end Dg
