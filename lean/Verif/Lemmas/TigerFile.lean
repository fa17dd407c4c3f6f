import Verif.Lemmas.TigerSent

/-! The content of a sentence graph before unconnected nodes are attached. -/

namespace Dg
open Dict
namespace DG

/-! ### generic -/

theorem clastWrite_mem {m : NodeId} {k : String} {v : Val} : ∀ {cs : List CInstr}, clastWrite m k cs = some v → ∃ c ∈ cs, c.write m k = some v
  | c :: cs, h => by
    rw [clastWrite] at h
    cases h1 : clastWrite m k cs with
    | some w =>
      rw [h1] at h
      obtain rfl := Option.some.inj h
      obtain ⟨d, hd, h2⟩ := clastWrite_mem h1
      exact ⟨d, List.mem_cons_of_mem _ hd, h2⟩
    | none =>
      rw [h1] at h
      exact ⟨c, by simp, h⟩

theorem clastWrite_isSome {m : NodeId} {k : String} {v : Val} : ∀ {cs : List CInstr}, (∃ c ∈ cs, c.write m k = some v) → ∃ w, clastWrite m k cs = some w
  | c :: cs, ⟨d, hd, h⟩ => by
    rw [clastWrite]
    cases h1 : clastWrite m k cs with
    | some w => exact ⟨w, rfl⟩
    | none =>
      rcases List.mem_cons.1 hd with rfl | hd
      · exact ⟨v, h⟩
      · obtain ⟨w, hw⟩ := clastWrite_isSome ⟨d, hd, h⟩
        rw [h1] at hw; cases hw

theorem clastWrite_eq {m : NodeId} {k : String} {w : Option Val} {cs : List CInstr} (h1 : ∀ c ∈ cs, ∀ v, c.write m k = some v → w = some v)
    (h2 : ∀ v, w = some v → ∃ c ∈ cs, c.write m k = some v) : clastWrite m k cs = w := by
  cases h : clastWrite m k cs with
  | some v =>
    obtain ⟨c, hc, hv⟩ := clastWrite_mem h
    exact (h1 c hc v hv).symm
  | none =>
    cases w with
    | none => rfl
    | some v =>
      obtain ⟨w, hw⟩ := clastWrite_isSome (h2 v rfl)
      rw [h] at hw; cases hw

theorem firstGives_append {m : NodeId} {l : Atom} {a b : List CInstr} : FirstGives m l (a ++ b) ↔ FirstGives m l a ∨ ((∀ c ∈ a, m ∉ c.newNodes) ∧ FirstGives m l b) := by
  induction a with
  | nil => simp [FirstGives]
  | cons c a ih =>
    rw [List.cons_append, FirstGives, FirstGives, ih]
    simp only [List.mem_cons, forall_eq_or_imp]
    tauto

theorem endsKnown_mono {cs : List CInstr} : ∀ {s s' : List NodeId}, (∀ m ∈ s, m ∈ s') → EndsKnown s cs → EndsKnown s' cs := by
  induction cs with
  | nil => intro _ _ _ _; trivial
  | cons c cs ih =>
    intro s s' h hk
    refine ⟨fun u v ls at' e => ⟨h _ (hk.1 u v ls at' e).1, h _ (hk.1 u v ls at' e).2⟩, ih ?_ hk.2⟩
    intro m hm
    rcases List.mem_append.1 hm with hm | hm
    · exact List.mem_append_left _ hm
    · exact List.mem_append_right _ (h m hm)

theorem endsKnown_append {a b : List CInstr} : ∀ {s : List NodeId}, EndsKnown s a → EndsKnown s b → EndsKnown s (a ++ b) := by
  induction a with
  | nil => intro s _ h; exact h
  | cons c a ih =>
    intro s ha hb
    exact ⟨ha.1, ih ha.2 (endsKnown_mono (fun m hm => List.mem_append_right _ hm) hb)⟩

/-! ### edges -/

theorem endsKnown_links {p : String} {u : NodeId} : ∀ {es : List EdgeSpec} {seen : List NodeId}, u ∈ seen → (∀ e ∈ es, e.source = u) → EndsKnown seen (es.flatMap (link p)) := by
  intro es
  induction es with
  | nil => intro _ _ _; trivial
  | cons e es ih =>
    intro seen hu he
    rw [List.flatMap_cons]
    refine endsKnown_append ?_ (ih hu (fun x hx => he x (List.mem_cons_of_mem _ hx)))
    refine ⟨?_, ?_, trivial⟩
    · rintro a b ls at' h; cases h
    · intro a b ls at' h
      injection h with h
      injection h with h1 h2 h3 h4
      subst h1 h2
      refine ⟨?_, by simp [CInstr.newNodes]⟩
      rw [he e (by simp)]
      exact List.mem_append_right _ hu

theorem termEdges_source {p : String} {t : TigerT} : ∀ e ∈ termEdges p t, e.source = t.node := by
  intro e he
  obtain ⟨x, _, rfl⟩ := List.mem_map.1 he
  rfl

theorem ntEdges_source {p : String} {toks : List NodeId} {before : List TigerNt} {t : TigerNt} : ∀ e ∈ ntEdges p toks before t, e.source = t.node := by
  intro e he
  rcases List.mem_append.1 he with he | he
  · obtain ⟨x, _, rfl⟩ := List.mem_map.1 he; rfl
  · obtain ⟨x, _, rfl⟩ := List.mem_map.1 he; rfl

theorem endsKnown_plain {i : Instr} {seen : List NodeId} (h : ¬ i.IsEdge) {cs : List CInstr} (hk : EndsKnown seen cs) : EndsKnown seen (.plain i :: cs) := by
  refine ⟨?_, endsKnown_mono (fun m hm => List.mem_append_right _ hm) hk⟩
  rintro u v ls at' e
  injection e with e
  subst e
  exact (h trivial).elim

theorem endsKnown_sent (p : String) (s : TigerS) : EndsKnown [] (sentCalls p s) := by
  unfold sentCalls
  refine endsKnown_plain (by simp [Instr.IsEdge]) (endsKnown_append ?_ (endsKnown_plain (by simp [Instr.IsEdge]) (endsKnown_append ?_ ?_)))
  · induction s.terms with
    | nil => trivial
    | cons t ts ih =>
      rw [List.flatMap_cons]
      refine endsKnown_append ?_ ih
      unfold termCalls
      refine ⟨?_, endsKnown_links (u := t.node) (by simp [CInstr.newNodes]) termEdges_source⟩
      rintro u v ls at' h; cases h
  · induction sentToks s with
    | nil => trivial
    | cons t ts ih => exact endsKnown_plain (by simp [Instr.IsEdge]) ih
  · generalize ([] : List TigerNt) = before
    induction s.nts generalizing before with
    | nil => trivial
    | cons t ts ih =>
      rw [ntsCalls]
      refine endsKnown_append ?_ (ih _)
      unfold ntCalls
      refine ⟨?_, endsKnown_links (u := t.node) (by simp [CInstr.newNodes]) ntEdges_source⟩
      rintro u v ls at' h; cases h

theorem count_links {p : String} {u v : NodeId} (es : List EdgeSpec) : (es.flatMap (link p)).countP (CInstr.isEdge u v) = es.countP (fun e => decide (e.source = u ∧ e.target = v)) := by
  induction es with
  | nil => rfl
  | cons e es ih =>
    rw [List.flatMap_cons, List.countP_append, ih, List.countP_cons, Nat.add_comm]
    congr 1
    unfold link
    simp only [List.countP_cons, List.countP_nil, CInstr.isEdge, Instr.isEdge]
    by_cases h : e.source = u ∧ e.target = v
    · simp [h.1, h.2]
    · have h' : ¬ (u = e.source ∧ v = e.target) := fun x => h ⟨x.1.symm, x.2.symm⟩
      simp [h, h']

theorem count_sent {p : String} {s : TigerS} {u v : NodeId} : (sentCalls p s).countP (CInstr.isEdge u v) = (fileEdges p s).countP (fun e => decide (e.source = u ∧ e.target = v)) := by
  unfold sentCalls fileEdges
  have h1 : (s.terms.flatMap (termCalls p)).countP (CInstr.isEdge u v) = (s.terms.flatMap (termEdges p)).countP (fun e => decide (e.source = u ∧ e.target = v)) := by
    induction s.terms with
    | nil => rfl
    | cons t ts ih =>
      rw [List.flatMap_cons, List.countP_append, ih, List.flatMap_cons, List.countP_append]
      congr 1
      unfold termCalls
      rw [List.countP_cons, count_links]
      simp [CInstr.isEdge, Instr.isEdge]
  have h2 : ∀ before, (ntsCalls p s.toks before s.nts).countP (CInstr.isEdge u v) = (ntsEdges p s.toks before s.nts).countP (fun e => decide (e.source = u ∧ e.target = v)) := by
    generalize s.toks = toks
    induction s.nts with
    | nil => intro _; rfl
    | cons t ts ih =>
      intro before
      rw [ntsCalls, ntsEdges, List.countP_append, List.countP_append, ih]
      congr 1
      unfold ntCalls
      rw [List.countP_cons, count_links]
      simp [CInstr.isEdge]
  have h3 : ((sentToks s).map (fun n => CInstr.plain (.token n))).countP (CInstr.isEdge u v) = 0 := by
    rw [List.countP_eq_zero]
    intro c hc
    obtain ⟨n, _, rfl⟩ := List.mem_map.1 hc
    simp [CInstr.isEdge, Instr.isEdge]
  rw [List.countP_cons, List.countP_append, List.countP_cons, List.countP_append, h1, h2, h3, List.countP_append]
  simp [CInstr.isEdge, Instr.isEdge]

/-! ### layers -/

theorem firstGives_links {p : String} {m u : NodeId} {l : Atom} (hm : m ≠ u) : ∀ {es : List EdgeSpec} {rest : List CInstr}, (∀ e ∈ es, e.source = u) →
    (FirstGives m l (es.flatMap (link p) ++ rest) ↔ if m ∈ es.map EdgeSpec.target then l ∈ [p, qual p "secedge"].map Atom.str else FirstGives m l rest) := by
  intro es
  induction es with
  | nil => intro rest _; simp
  | cons e es ih =>
    intro rest he
    rw [List.flatMap_cons, List.append_assoc]
    show FirstGives m l (CInstr.ensure e.target [p, qual p "secedge"] :: CInstr.plain (.edge e.source e.target e.layers e.attrs) :: (es.flatMap (link p) ++ rest)) ↔ _
    rw [FirstGives, FirstGives, ih (fun x hx => he x (List.mem_cons_of_mem _ hx)), he e (by simp)]
    simp only [CInstr.MayGive, CInstr.newNodes, List.mem_cons, List.not_mem_nil, or_false, List.map_cons, false_or]
    by_cases h : m = e.target
    · simp [h]
    · simp [h, hm]

/-- what a mention of a node gives to it, if it is the first one -/
def gives (p : String) (l : Atom) (declared : Prop) : Option (NodeId × Bool) → Prop → Prop
  | some (_, false), _ => l ∈ [p, qual p "secedge"].map Atom.str
  | some (_, true), _ => declared
  | none, rest => rest

theorem find_refs {m : NodeId} {ns : List NodeId} : (ns.map (fun n => (n, false))).find? (fun x => decide (x.1 = m)) = if m ∈ ns then some (m, false) else none := by
  induction ns with
  | nil => rfl
  | cons n ns ih =>
    rw [List.map_cons, List.find?_cons, ih]
    by_cases h : n = m
    · simp [h]
    · simp [h, Ne.symm h]

theorem firstGives_block {p : String} {m u : NodeId} {l : Atom} {c : CInstr} {es : List EdgeSpec} {rest : List CInstr} (hc : c.newNodes = [u]) (he : ∀ e ∈ es, e.source = u) {D : Prop} (hD : m = u → (c.MayGive m l ↔ D)) (hD2 : m ≠ u → ¬ c.MayGive m l) :
    FirstGives m l (c :: es.flatMap (link p) ++ rest) ↔ gives p l D (((u, true) :: es.map (fun e => (e.target, false))).find? (fun x => decide (x.1 = m))) (FirstGives m l rest) := by
  rw [List.cons_append, FirstGives, hc, List.find?_cons]
  by_cases h : m = u
  · have : (decide (u = m)) = true := by simp [h]
    simp only [this]
    simp [gives, h]
    rw [← h]
    exact hD h
  · have : (decide (u = m)) = false := by simp [Ne.symm h]
    simp only [this]
    rw [firstGives_links h he, show es.map (fun e => (e.target, false)) = (es.map EdgeSpec.target).map (fun n => (n, false)) by simp, find_refs]
    simp only [List.mem_singleton, h, not_false_eq_true, true_and, hD2 h, false_or]
    split <;> rfl

theorem gives_or {p : String} {l : Atom} {D R : Prop} {a b : Option (NodeId × Bool)} : gives p l D a (gives p l D b R) = gives p l D (a.or b) R := by
  cases a with
  | none => rfl
  | some x => obtain ⟨n, _ | _⟩ := x <;> rfl

theorem targets_term (p : String) (t : TigerT) : (termEdges p t).map (fun e => (e.target, false)) = t.secs.map (fun e => (refNode e, false)) := by
  simp [termEdges, Function.comp_def]

theorem targets_nt (p : String) (toks : List NodeId) (before : List TigerNt) (t : TigerNt) : (ntEdges p toks before t).map (fun e => (e.target, false)) = (t.edges ++ t.secs).map (fun e => (refNode e, false)) := by
  simp [ntEdges, Function.comp_def]

/-- mentions by terminals -/
def termMentions (ts : List TigerT) : List (NodeId × Bool) := ts.flatMap (fun t => (t.node, true) :: t.secs.map (fun e => (refNode e, false)))

/-- mentions by nonterminals -/
def ntMentions (ts : List TigerNt) : List (NodeId × Bool) := ts.flatMap (fun t => (t.node, true) :: (t.edges ++ t.secs).map (fun e => (refNode e, false)))

theorem mentions_split (s : TigerS) : mentions s = termMentions s.terms ++ ntMentions s.nts := rfl

theorem firstGives_terms {p : String} {m : NodeId} {l : Atom} {rest : List CInstr} : ∀ ts : List TigerT,
    (FirstGives m l (ts.flatMap (termCalls p) ++ rest) ↔ gives p l False ((termMentions ts).find? (fun x => decide (x.1 = m))) (FirstGives m l rest)) := by
  intro ts
  induction ts with
  | nil => exact Iff.rfl
  | cons t ts ih =>
    rw [List.flatMap_cons, List.append_assoc]
    unfold termCalls
    rw [firstGives_block (u := t.node) (c := .plain (.node t.node [p, qual p "token"] (termAttrs p t))) (D := False) rfl termEdges_source (fun _ => Iff.rfl) (fun _ h => h), targets_term]
    change gives p l False _ (FirstGives m l (ts.flatMap (termCalls p) ++ rest)) ↔ _
    rw [propext ih, gives_or, ← List.find?_append]
    rfl

theorem firstGives_nts {p : String} {toks : List NodeId} {m : NodeId} {l : Atom} : ∀ (ts before : List TigerNt),
    (FirstGives m l (ntsCalls p toks before ts) ↔ gives p l (l ∈ [p, qual p "syntax"].map Atom.str) ((ntMentions ts).find? (fun x => decide (x.1 = m))) False) := by
  intro ts
  induction ts with
  | nil => intro _; exact Iff.rfl
  | cons t ts ih =>
    intro before
    rw [ntsCalls]
    unfold ntCalls
    rw [firstGives_block (u := t.node) (c := .declare t.node [p, qual p "syntax"] (ntAttrs p t)) (D := l ∈ [p, qual p "syntax"].map Atom.str) rfl ntEdges_source (fun h => by simp [CInstr.MayGive, h]) (fun h h' => h h'.1), targets_nt]
    rw [propext (ih _), gives_or, ← List.find?_append]
    rfl

theorem firstGives_tokens {m : NodeId} {l : Atom} {rest : List CInstr} (ns : List NodeId) : FirstGives m l (ns.map (fun n => CInstr.plain (.token n)) ++ rest) ↔ FirstGives m l rest := by
  induction ns with
  | nil => exact Iff.rfl
  | cons n ns ih =>
    rw [List.map_cons, List.cons_append, FirstGives, ih]
    simp [CInstr.MayGive, CInstr.newNodes]

theorem firstGives_sent {p : String} {s : TigerS} {m : NodeId} {l : Atom} : FirstGives m l (sentCalls p s) ↔
    m ≠ s.root ∧ gives p l False ((termMentions s.terms).find? (fun x => decide (x.1 = m))) (gives p l (l ∈ [p, qual p "syntax"].map Atom.str) ((ntMentions s.nts).find? (fun x => decide (x.1 = m))) False) := by
  unfold sentCalls
  rw [FirstGives, firstGives_terms, FirstGives, firstGives_tokens, firstGives_nts]
  simp [CInstr.MayGive, CInstr.newNodes]

theorem givesLayer_sent {p : String} {s : TigerS} {m : NodeId} {l : Atom} : (∃ c ∈ sentCalls p s, c.GivesLayer m l) ↔ (m = s.root ∧ l ∈ (rootLayers p).map Atom.str) ∨ (m ∈ s.toks ∧ l ∈ [p, qual p "token"].map Atom.str) := by
  constructor
  · rintro ⟨c, hc, h⟩
    rcases mem_sentCalls.1 hc with rfl | ⟨t, ht, rfl⟩ | rfl | ⟨x, _, rfl⟩ | ⟨t, ht, rfl⟩ | ⟨e, he, hc⟩
    · exact .inl h
    · exact .inr ⟨h.1 ▸ List.mem_map_of_mem ht, h.2⟩
    · exact h.elim
    · exact h.elim
    · exact h.elim
    · unfold link at hc
      simp only [List.mem_cons, List.not_mem_nil, or_false] at hc
      rcases hc with rfl | rfl <;> exact h.elim
  · rintro (⟨h1, h2⟩ | ⟨h1, h2⟩)
    · exact ⟨.plain (.node s.root (rootLayers p) []), mem_sentCalls.2 (.inl rfl), h1, h2⟩
    · obtain ⟨t, ht, rfl⟩ := List.mem_map.1 h1
      exact ⟨.plain (.node t.node [p, qual p "token"] (termAttrs p t)), mem_sentCalls.2 (.inr (.inl ⟨t, ht, rfl⟩)), rfl, h2⟩

theorem find_mention {m : NodeId} : ∀ {xs : List (NodeId × Bool)} {y : NodeId × Bool}, xs.find? (fun x => decide (x.1 = m)) = some y → y.1 = m := by
  intro xs y h
  simpa using List.find?_some h

theorem layers_sent {p : String} {s : TigerS} {m : NodeId} (hm : m ∈ s.declared) {l : Atom} : ((∃ c ∈ sentCalls p s, c.GivesLayer m l) ∨ FirstGives m l (sentCalls p s)) ↔ l ∈ (nodeLayers p s m).map Atom.str := by
  rw [givesLayer_sent, firstGives_sent]
  unfold nodeLayers early
  rw [mentions_split, List.find?_append]
  by_cases hr : m = s.root
  · simp only [hr, ne_eq, not_true_eq_false, false_and, or_false, true_and, if_true]
    by_cases ht : s.root ∈ s.toks
    · simp only [ht, true_and, if_true, List.map_append, List.mem_append]; exact or_comm
    · simp only [ht, false_and, or_false, if_false]
  · simp only [hr, ne_eq, not_false_eq_true, true_and, false_and, false_or, if_false]
    by_cases ht : m ∈ s.toks
    · have : ∃ b, (termMentions s.terms).find? (fun x => decide (x.1 = m)) = some (m, b) := by
        cases h : (termMentions s.terms).find? (fun x => decide (x.1 = m)) with
        | some y => exact ⟨y.2, by rw [← find_mention h]⟩
        | none =>
          rw [List.find?_eq_none] at h
          obtain ⟨t, ht2, rfl⟩ := List.mem_map.1 ht
          exact absurd (h (t.node, true) (List.mem_flatMap.2 ⟨t, ht2, by simp⟩)) (by simp)
      obtain ⟨b, hb⟩ := this
      rw [hb]
      simp only [ht, true_and, if_true, Option.some_or, List.map_append, List.mem_append]
      cases b with
      | false =>
        simp only [gives, beq_self_eq_true, if_true]
        simp only [List.map_cons, List.map_nil, List.mem_cons, List.not_mem_nil, or_false]
        tauto
      | true => simp [gives]
    · simp only [ht, false_and, false_or, if_false]
      have hnt : m ∈ s.nts.map TigerNt.node := (List.mem_append.1 hm).resolve_left ht
      cases ha : (termMentions s.terms).find? (fun x => decide (x.1 = m)) with
      | some y =>
        obtain ⟨n, b⟩ := y
        obtain rfl : n = m := find_mention ha
        cases b with
        | false => simp [gives]
        | true =>
          exfalso
          have := List.mem_of_find?_eq_some ha
          obtain ⟨t, ht', h⟩ := List.mem_flatMap.1 this
          rcases List.mem_cons.1 h with h | h
          · have h := congrArg Prod.fst h
            exact ht (by rw [show n = t.node from h]; exact List.mem_map_of_mem ht')
          · obtain ⟨e, _, h⟩ := List.mem_map.1 h
            exact absurd (congrArg Prod.snd h) (by simp)
      | none =>
        simp only [Option.none_or, gives]
        cases hb : (ntMentions s.nts).find? (fun x => decide (x.1 = m)) with
        | some y =>
          obtain ⟨n, b⟩ := y
          obtain rfl : n = m := find_mention hb
          cases b <;> simp
        | none =>
          rw [List.find?_eq_none] at hb
          obtain ⟨t, ht2, rfl⟩ := List.mem_map.1 hnt
          exact absurd (hb (t.node, true) (List.mem_flatMap.2 ⟨t, ht2, by simp⟩)) (by simp)

/-! ### attributes -/

theorem find_termAttrs {p : String} {t : TigerT} (k : String) : find (termAttrs p t) k = termAttr p t k := by
  unfold termAttrs termAttr
  rw [find_append]
  by_cases h1 : k = "label"
  · rw [if_pos (.inl h1)]
    have : find (put (xmlAttrs p t.attrs) (qual p "token") (strV (xval t.attrs "word"))) k = none := by
      rw [find_put_ne _ _ (fun e => qual_ne_plain (by decide) (e.trans h1)), find_eq_none_iff, h1]
      exact xmlAttrs_plain (by decide)
    rw [this, h1]
    rfl
  · by_cases h2 : k = qual p "token"
    · rw [if_pos (.inr h2), h2, find_put_self]; rfl
    · rw [if_neg (by tauto), find_put_ne _ _ (Ne.symm h2)]
      have : find ([("label", strV (xval t.attrs "word"))] : Attrs) k = none := by simp [find, Ne.symm h1]
      rw [this]
      cases find (xmlAttrs p t.attrs) k <;> rfl

theorem find_ntAttrs {p : String} {t : TigerNt} (k : String) : find (ntAttrs p t) k = ntAttr p t k := by
  unfold ntAttrs ntAttr
  rw [find_append]
  by_cases h1 : k = "label"
  · rw [if_pos h1, h1, (find_eq_none_iff _ _).2 (xmlAttrs_plain (by decide))]
    rfl
  · rw [if_neg h1]
    have : find ([("label", strV (xval t.attrs "cat"))] : Attrs) k = none := by simp [find, Ne.symm h1]
    rw [this]
    cases find (xmlAttrs p t.attrs) k <;> rfl

theorem find_unique {α : Type} {f : α → NodeId} : ∀ {xs : List α} {x : α}, (xs.map f).Nodup → x ∈ xs → xs.find? (fun y => decide (f y = f x)) = some x := by
  intro xs
  induction xs with
  | nil => intro x _ h; cases h
  | cons y ys ih =>
    intro x nd hx
    rw [List.map_cons, List.nodup_cons] at nd
    rw [List.find?_cons]
    rcases List.mem_cons.1 hx with rfl | hx
    · simp
    · have : f y ≠ f x := fun e => nd.1 (e ▸ List.mem_map_of_mem hx)
      simp only [this, decide_false]
      exact ih nd.2 hx

theorem attr_sent {p : String} {s : TigerS} (hv : s.Valid) (m : NodeId) (k : String) : clastWrite m k (sentCalls p s) = sentAttr p s m k := by
  have nd := hv.unique
  unfold TigerS.declared TigerS.toks at nd
  rw [List.nodup_append] at nd
  obtain ⟨nd1, nd2, nd3⟩ := nd
  -- terminals and nonterminals have different nodes
  have hT : ∀ t ∈ s.terms, s.terms.find? (fun y => decide (y.node = t.node)) = some t := fun t ht => find_unique nd1 ht
  have hN : ∀ t ∈ s.nts, s.nts.find? (fun y => decide (y.node = t.node)) = some t := fun t ht => find_unique nd2 ht
  have hTN : ∀ t ∈ s.nts, s.terms.find? (fun y => decide (y.node = t.node)) = none := by
    intro t ht
    rw [List.find?_eq_none]
    intro x hx e
    exact nd3 _ (List.mem_map_of_mem hx) _ (List.mem_map_of_mem ht) (by simpa using e)
  have tt : ∀ t : TigerT, termAttr p t "tokens" = none := by
    intro t
    unfold termAttr
    rw [if_neg (by rintro (h | h); exacts [absurd h (by decide), qual_ne_plain (by decide) h.symm]), find_eq_none_iff]
    exact xmlAttrs_plain (by decide)
  have tn : ∀ t : TigerNt, ntAttr p t "tokens" = none := by
    intro t
    unfold ntAttr
    rw [if_neg (by decide), find_eq_none_iff]
    exact xmlAttrs_plain (by decide)
  apply clastWrite_eq
  · intro c hc v h
    rcases mem_sentCalls.1 hc with rfl | ⟨t, ht, rfl⟩ | rfl | ⟨x, _, rfl⟩ | ⟨t, ht, rfl⟩ | ⟨e, he, hc⟩
    · simp [CInstr.write, Instr.write, find] at h
    · simp only [CInstr.write, Instr.write, find_termAttrs] at h
      split at h
      · rename_i hm
        unfold sentAttr
        have : k ≠ "tokens" := by rintro rfl; rw [tt] at h; cases h
        rw [if_neg this, hm, hT t ht]
        exact h
      · cases h
    · simp only [CInstr.write, Instr.write] at h
      split at h
      · rename_i hm
        unfold sentAttr
        rw [if_pos hm.2, if_pos hm.1]
        exact h
      · cases h
    · simp [CInstr.write, Instr.write] at h
    · simp only [CInstr.write, find_ntAttrs] at h
      split at h
      · rename_i hm
        unfold sentAttr
        have : k ≠ "tokens" := by rintro rfl; rw [tn] at h; cases h
        rw [if_neg this, hm, hTN t ht, hN t ht]
        exact h
      · cases h
    · unfold link at hc
      simp only [List.mem_cons, List.not_mem_nil, or_false] at hc
      rcases hc with rfl | rfl
      · simp [CInstr.write] at h
      · simp [CInstr.write, Instr.write] at h
  · intro v h
    unfold sentAttr at h
    split at h
    · rename_i hk
      split at h
      · rename_i hm
        refine ⟨_, mem_sentCalls.2 (.inr (.inr (.inl rfl))), ?_⟩
        simp only [CInstr.write, Instr.write]
        rw [if_pos ⟨hm, hk⟩]; exact h
      · cases h
    · split at h
      · rename_i t ht
        have hm : t.node = m := by simpa using List.find?_some ht
        refine ⟨_, mem_sentCalls.2 (.inr (.inl ⟨t, List.mem_of_find?_eq_some ht, rfl⟩)), ?_⟩
        simp only [CInstr.write, Instr.write, find_termAttrs]
        rw [if_pos hm.symm]; exact h
      · split at h
        · rename_i t ht
          have hm : t.node = m := by simpa using List.find?_some ht
          refine ⟨_, mem_sentCalls.2 (.inr (.inr (.inr (.inr (.inl ⟨t, List.mem_of_find?_eq_some ht, rfl⟩))))), ?_⟩
          simp only [CInstr.write, find_ntAttrs]
          rw [if_pos hm.symm]; exact h
        · cases h

/-! ### the graph -/

/-- the graph has the content of the sentence -/
structure FileGraph (p : String) (s : TigerS) (g : DG) : Prop where
  inv : Inv g
  layered : NodesLayered False g
  ns : g.ns = p
  root : g.root = s.root
  tokens : g.tokens = sentToks s
  nodes : ∀ m, g.HasNode m ↔ m ∈ s.declared
  attr : ∀ m k, k ≠ "layers" → g.nodeAttr m k = sentAttr p s m k
  layer : ∀ m ∈ s.declared, ∀ l, g.NodeLayer m l ↔ l ∈ (nodeLayers p s m).map Atom.str
  edges : EdgesAre g (fileEdges p s)

theorem edge_sent {p : String} {s : TigerS} {u v : NodeId} {ls : List String} {at' : Attrs} : CInstr.plain (.edge u v ls at') ∈ sentCalls p s ↔ (⟨u, v, ls, at'⟩ : EdgeSpec) ∈ fileEdges p s := by
  rw [mem_sentCalls]
  constructor
  · rintro (h | ⟨t, _, h⟩ | h | ⟨n, _, h⟩ | ⟨t, _, h⟩ | ⟨e, he, hc⟩)
    · cases h
    · cases h
    · cases h
    · cases h
    · cases h
    · unfold link at hc
      simp only [List.mem_cons, List.not_mem_nil, or_false] at hc
      rcases hc with hc | hc
      · cases hc
      · injection hc with hc
        injection hc with h1 h2 h3 h4
        subst h1 h2 h3 h4
        exact he
  · intro h
    exact .inr (.inr (.inr (.inr (.inr ⟨_, h, by simp [link]⟩))))

theorem Blank.noAttr {p : String} {r : NodeId} {g : DG} (h : Blank p r g) (m : NodeId) (k : String) : g.nodeAttr m k = none := by
  unfold nodeAttr nodeAttrs
  rw [h.nodes]
  rfl

theorem Blank.noEdge {p : String} {r : NodeId} {g : DG} (h : Blank p r g) (u v : NodeId) : g.kd? u v = none := by
  unfold kd?
  rw [h.adj]
  rfl

theorem tigerSentence2graph_file {p : String} {s : TigerS} (hv : s.Valid) {g : DG} (hg : Blank p s.root g) : ∃ g', g.tigerSentence2graph s = .ok g' ∧ FileGraph p s g' := by
  obtain ⟨g', e, b⟩ := tigerSentence2graph_built hv hg
  refine ⟨g', e, b.inv, b.layered, b.ns.trans hg.ns, b.root.trans hg.root, ?_, ?_, ?_, ?_, ?_⟩
  · rw [b.tokens, hg.tokens, newTokens_compile]
    unfold sentCalls
    rw [List.flatMap_cons, List.flatMap_append, newTokens_terms, List.flatMap_cons, List.flatMap_append, newTokens_sent, newTokens_nts]
    simp [CInstr.newTokens, Instr.newTokens]
  · intro m
    rw [b.nodes]
    have h1 := mentions_compile (m := m) (sentCalls p s) (seen := [])
    simp only [List.not_mem_nil, false_or] at h1
    rw [h1]
    constructor
    · rintro (h | ⟨c, hc, h⟩)
      · exact (hg.noNode m h).elim
      · rcases mem_sentCalls.1 hc with rfl | ⟨t, ht, rfl⟩ | rfl | ⟨x, _, rfl⟩ | ⟨t, ht, rfl⟩ | ⟨e, he, hc⟩
        · simp only [CInstr.newNodes, List.mem_singleton] at h
          exact h ▸ hv.root
        · simp only [CInstr.newNodes, List.mem_singleton] at h
          exact h ▸ List.mem_append_left _ (List.mem_map_of_mem ht)
        · cases h
        · cases h
        · simp only [CInstr.newNodes, List.mem_singleton] at h
          exact h ▸ List.mem_append_right _ (List.mem_map_of_mem ht)
        · obtain ⟨_, _, h1, h2⟩ := fileEdges_ok hv e he
          unfold link at hc
          simp only [List.mem_cons, List.not_mem_nil, or_false] at hc
          rcases hc with rfl | rfl
          · simp only [CInstr.newNodes, List.mem_singleton] at h
            exact h ▸ h2
          · simp only [CInstr.newNodes, List.mem_cons, List.not_mem_nil, or_false] at h
            rcases h with h | h
            · exact h ▸ h1
            · exact h ▸ h2
    · intro h
      refine .inr ?_
      rcases List.mem_append.1 h with h | h
      · obtain ⟨t, ht, rfl⟩ := List.mem_map.1 h
        exact ⟨_, mem_sentCalls.2 (.inr (.inl ⟨t, ht, rfl⟩)), by simp [CInstr.newNodes]⟩
      · obtain ⟨t, ht, rfl⟩ := List.mem_map.1 h
        exact ⟨_, mem_sentCalls.2 (.inr (.inr (.inr (.inr (.inl ⟨t, ht, rfl⟩))))), by simp [CInstr.newNodes]⟩
  · intro m k hk
    rw [b.attr m k hk, hg.noAttr, lastWrite_compile _ (sentCalls_ok hv), attr_sent hv]
    cases sentAttr p s m k <;> rfl
  · intro m hm l
    rw [b.layer, givesLayer_compile]
    have h0 : ¬ g.NodeLayer m l := by
      rintro ⟨a, ha, _⟩
      exact hg.noNode m ((hasNode_some _ _).2 ⟨a, ha⟩)
    have h1 : ¬ Implicit m (compile [] (sentCalls p s)) := not_implicit_compile _ (endsKnown_sent p s) (by simp)
    rw [← layers_sent hm]
    simp only [h0, h1, false_and, and_false, or_false, false_or, List.not_mem_nil, not_false_eq_true, true_and]
  · refine ⟨?_, ?_, ?_⟩
    · intro u v a h
      rcases b.edgeOf u v a h with ⟨k, h⟩ | ⟨ls, at', h, hm⟩
      · unfold edgeAttrs at h
        rw [hg.noEdge] at h
        cases h
      · exact ⟨_, edge_sent.1 ((edge_compile _).1 h), rfl, rfl, hm⟩
    · intro e he
      exact b.edgeNew _ _ _ _ ((edge_compile _).2 (edge_sent.2 he))
    · intro u v
      rw [b.count, count_compile, count_sent]
      unfold edgeCount
      rw [hg.noEdge]
      simp

end DG
end Dg
