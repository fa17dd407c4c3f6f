import Verif.Spec.CorpusIter
import Mathlib.Tactic.Set
import Mathlib.Tactic.ByContra
import Mathlib.Data.List.Induction

namespace Dg

theorem XElem.tag_mk (t : String) (i : Option String) (a : XAttrs) (cs : List XElem) : (XElem.mk t i a cs).tag = t := rfl

mutual
theorem XElem.count_eq (tag : String) : ∀ (n : Nat) (e : XElem), e.count tag n = n + (e.all.filter (fun e => e.tag = tag)).length
  | n, .mk t i a cs => by
    simp only [XElem.count, XElem.all, List.filter_cons, XElem.tag_mk]
    rw [XElem.countL_eq]
    by_cases h : t = tag <;> simp [h] <;> omega
theorem XElem.countL_eq (tag : String) : ∀ (n : Nat) (cs : List XElem), XElem.countL tag n cs = n + ((XElem.allL cs).filter (fun e => e.tag = tag)).length
  | n, [] => by simp [XElem.countL, XElem.allL]
  | n, c :: cs => by
    simp only [XElem.countL, XElem.allL, List.filter_append, List.length_append]
    rw [XElem.countL_eq, XElem.count_eq]
    omega
end

mutual
theorem XElem.ends_perm (tag : String) : ∀ e : XElem, (e.ends tag).Perm (e.all.filter (fun e => e.tag = tag))
  | .mk t i a cs => by
    simp only [XElem.ends, XElem.all, List.filter_cons, XElem.tag_mk]
    by_cases h : t = tag
    · simp only [h, if_true, decide_true]
      exact (List.perm_append_comm.trans ((XElem.endsL_perm tag cs).cons _))
    · simp only [h, if_false, decide_false, List.append_nil, Bool.false_eq_true]
      exact XElem.endsL_perm tag cs
theorem XElem.endsL_perm (tag : String) : ∀ cs : List XElem, (XElem.endsL tag cs).Perm ((XElem.allL cs).filter (fun e => e.tag = tag))
  | [] => .nil
  | c :: cs => by
    simp only [XElem.endsL, XElem.allL, List.filter_append]
    exact (XElem.ends_perm tag c).append (XElem.endsL_perm tag cs)
end

mutual
theorem XElem.ends_eq (tag : String) : ∀ e : XElem, (∀ d ∈ e.all, d.tag = tag → ∀ x ∈ XElem.allL d.children, x.tag ≠ tag) → e.ends tag = e.all.filter (fun e => e.tag = tag)
  | .mk t i a cs, h => by
    simp only [XElem.ends, XElem.all, List.filter_cons, XElem.tag_mk]
    by_cases ht : t = tag
    · have h0 := h (.mk t i a cs) (by simp [XElem.all]) ht
      have hn : (XElem.allL cs).filter (fun e => decide (e.tag = tag)) = [] := by
        rw [List.filter_eq_nil_iff]; intro x hx; simpa using h0 x hx
      have hp := (XElem.endsL_perm tag cs)
      rw [hn] at hp
      simp [hp.eq_nil, hn, ht]
    · simp only [ht, if_false, decide_false, List.append_nil, Bool.false_eq_true]
      exact XElem.endsL_eq tag cs (fun d hd => h d (by simp [XElem.all, hd]))
theorem XElem.endsL_eq (tag : String) : ∀ cs : List XElem, (∀ d ∈ XElem.allL cs, d.tag = tag → ∀ x ∈ XElem.allL d.children, x.tag ≠ tag) → XElem.endsL tag cs = (XElem.allL cs).filter (fun e => e.tag = tag)
  | [], _ => rfl
  | c :: cs, h => by
    simp only [XElem.endsL, XElem.allL, List.filter_append]
    rw [XElem.ends_eq tag c (fun d hd => h d (by simp [XElem.allL, hd])), XElem.endsL_eq tag cs (fun d hd => h d (by simp [XElem.allL, hd]))]
end

theorem ends_documents {tag : String} {file : XElem} (h : Unnested tag file) : file.ends tag = documentsOf tag file :=
  XElem.ends_eq tag file (fun d hd ht => h d (List.mem_filter.2 ⟨hd, by simpa using ht⟩))

theorem count_documents (tag : String) (file : XElem) : file.count tag 0 = (documentsOf tag file).length := by
  rw [XElem.count_eq, documentsOf]; omega

namespace XCorpus

variable {R : Type}

theorem run_append (K : CorpusKind R) (c : XCorpus) (h h' : List CorpusCall) :
    c.run K (h ++ h') = (((c.run K h).1.run K h').1, (c.run K h).2 ++ ((c.run K h).1.run K h').2) := by
  induction h generalizing c with
  | nil => simp [run]
  | cons x xs ih => simp [run, ih]

theorem run_length (K : CorpusKind R) (c : XCorpus) (h : List CorpusCall) : (c.run K h).2.length = h.length := by
  induction h generalizing c with
  | nil => simp [run]
  | cons x xs ih => simp [run, ih]

theorem run_snoc (K : CorpusKind R) (c : XCorpus) (h : List CorpusCall) (x : CorpusCall) :
    c.run K (h ++ [x]) = (((c.run K h).1.call K x).1, (c.run K h).2 ++ [((c.run K h).1.call K x).2]) := by
  rw [run_append]; simp [run]

end XCorpus

theorem bookOf_snoc {R : Type} (h : List CorpusCall) (outs : List (CorpusOut R)) (x : CorpusCall) (y : CorpusOut R) (hl : outs.length = h.length) :
    bookOf (h ++ [x]) (outs ++ [y]) = (bookOf h outs).note (x, y) := by
  unfold bookOf
  rw [List.zip_append hl.symm]
  simp

/-- what a request gives of an opening at this position -/
def requestOut {R : Type} (K : CorpusKind R) (file : XElem) (debug : Bool) (o pos : Nat) : CorpusOut R :=
  match (file.ends K.tag)[pos]? with
  | none => .error .stopIteration
  | some d => documentOut K debug o pos d

namespace XCorpus
variable {R : Type}

/-- the elements emptied by a step -/
def emptiedBy (it : CorpusIter) (o : Nat) : List Nat := if o = it.ctx then it.pending.toList else []

theorem step_spec (K : CorpusKind R) (c : XCorpus) (it : CorpusIter) (x : CorpusCtx) (hx : c.contexts[it.ctx]? = some x) (hl : it.ended = false) :
    ∃ cs it', c.step K it = ({ c with contexts := cs }, it', requestOut K c.file c.debug it.ctx x.pos) ∧ cs.length = c.contexts.length ∧
      (∀ o y, c.contexts[o]? = some y → ∃ y', cs[o]? = some y' ∧ y'.pos = (if o = it.ctx ∧ y.pos < (c.file.ends K.tag).length then y.pos + 1 else y.pos) ∧
        y'.cleared = emptiedBy it o ++ y.cleared) ∧
      it'.ctx = it.ctx ∧ it'.ended = (requestOut K c.file c.debug it.ctx x.pos : CorpusOut R).isError ∧
      it'.pending = (if (requestOut K c.file c.debug it.ctx x.pos : CorpusOut R).isError then none else some x.pos) := by
  obtain ⟨ctx, pending, ended⟩ := it
  simp only at hx hl
  subst hl
  set c1 : XCorpus := c.resume ⟨ctx, pending, false⟩ with hc1
  have h1 : c1 = { c with contexts := c1.contexts } := by
    rw [hc1]; cases pending <;> rfl
  have hcs : ∀ (o : Nat) (y : CorpusCtx), c.contexts[o]? = some y → c1.contexts[o]? = some { y with cleared := emptiedBy ⟨ctx, pending, false⟩ o ++ y.cleared } := by
    intro o y hy
    rw [hc1]
    cases pending with
    | none => simp [emptiedBy, resume, hy]
    | some i =>
      simp only [resume, clear, emptiedBy, Option.toList, List.getElem?_modify]
      by_cases ho : ctx = o
      · subst ho; simp [hy]
      · simp [ho, Ne.symm ho, hy]
  have hlen : c1.contexts.length = c.contexts.length := by
    rw [hc1]; cases pending <;> simp [resume, clear]
  have hx1 := hcs ctx x hx
  have hf : c1.file = c.file := by rw [h1]
  have hd : c1.debug = c.debug := by rw [h1]
  unfold step
  simp only [Bool.false_eq_true, if_false]
  rw [← hc1]
  simp only [hx1, hf, hd]
  unfold requestOut documentOut
  cases he : (c.file.ends K.tag)[x.pos]? with
  | none =>
    have hge : (c.file.ends K.tag).length ≤ x.pos := by simpa using he
    refine ⟨c1.contexts, ⟨ctx, none, true⟩, ?_, hlen, ?_, ?_, ?_, ?_⟩
    rotate_left
    · intro o y hy
      refine ⟨_, hcs o y hy, ?_, rfl⟩
      by_cases ho : o = ctx
      · subst ho
        have hxy : x = y := by simpa [hx] using hy
        subst hxy
        simp [Nat.not_lt.2 hge]
      · simp [ho]
    rotate_right
    · dsimp only; rw [← h1]
    · rfl
    · rfl
    · rfl
  | some e =>
    have hlt : x.pos < (c.file.ends K.tag).length := (List.getElem?_eq_some_iff.1 he).1
    have hmod : ∀ (o : Nat) (y : CorpusCtx), c.contexts[o]? = some y → ∃ y', (c1.contexts.modify ctx (fun y => { y with pos := y.pos + 1 }))[o]? = some y' ∧
        y'.pos = (if o = ctx ∧ y.pos < (c.file.ends K.tag).length then y.pos + 1 else y.pos) ∧ y'.cleared = emptiedBy ⟨ctx, pending, false⟩ o ++ y.cleared := by
      intro o y hy
      by_cases ho : o = ctx
      · subst ho
        have hxy : x = y := by simpa [hx] using hy
        subst hxy
        refine ⟨_, by rw [List.getElem?_modify, hcs _ _ hy]; rfl, ?_, ?_⟩ <;> simp [hlt]
      · refine ⟨_, by rw [List.getElem?_modify, hcs o y hy]; rfl, ?_, ?_⟩ <;> simp [ho, Ne.symm ho]
    by_cases hdb : c.debug = true
    · simp only [hdb, if_true]
      refine ⟨c1.contexts.modify ctx (fun y => { y with pos := y.pos + 1 }), ⟨ctx, some x.pos, false⟩, ?_, by simp [hlen], hmod, ?_, ?_, ?_⟩
      · rw [h1]
      · rfl
      · rfl
      · rfl
    · simp only [hdb, if_false, Bool.false_eq_true]
      cases hk : K.convert e with
      | ok r =>
        refine ⟨c1.contexts.modify ctx (fun y => { y with pos := y.pos + 1 }), ⟨ctx, some x.pos, false⟩, ?_, by simp [hlen], hmod, ?_, ?_, ?_⟩
        · dsimp only; rw [h1]
        · rfl
        · rfl
        · rfl
      | error err =>
        refine ⟨c1.contexts.modify ctx (fun y => { y with pos := y.pos + 1 }), ⟨ctx, none, true⟩, ?_, by simp [hlen], hmod, ?_, ?_, ?_⟩
        · dsimp only; rw [h1]
        · rfl
        · rfl
        · rfl

theorem requestOut_stop {K : CorpusKind R} {file : XElem} {debug : Bool} {o pos : Nat}
    (noStop : debug = true ∨ ∀ d ∈ file.ends K.tag, K.convert d ≠ .error .stopIteration) :
    (requestOut K file debug o pos).isStop = true ↔ (file.ends K.tag).length ≤ pos := by
  unfold requestOut
  cases h : (file.ends K.tag)[pos]? with
  | none => simpa [CorpusOut.isStop] using h
  | some d =>
    have hlt := (List.getElem?_eq_some_iff.1 h).1
    have hd : d ∈ file.ends K.tag := List.mem_of_getElem? h
    simp only [documentOut]
    by_cases hb : debug = true
    · simp [hb, CorpusOut.isStop, hlt]
    · have hc := (noStop.resolve_left hb) d hd
      simp only [hb, if_false, Bool.false_eq_true]
      cases hk : K.convert d with
      | ok r => simp [CorpusOut.isStop, hlt]
      | error e =>
        cases e <;> simp_all [CorpusOut.isStop]

/-- the state of a corpus after a history -/
structure Inv (K : CorpusKind R) (name : String) (file : XElem) (debug : Bool) (h : List CorpusCall) (c : XCorpus) (outs : List (CorpusOut R)) : Prop where
  name_eq : c.name = name
  file_eq : c.file = file
  debug_eq : c.debug = debug
  cur : c.current = (bookOf h outs).opening
  len : c.contexts.length = (bookOf h outs).opening + 1
  its : c.iters.map CorpusIter.ctx = (bookOf h outs).iters
  itsOk : ∀ it ∈ c.iters, it.ctx < c.contexts.length
  pos : ∀ o x, c.contexts[o]? = some x → x.pos ≤ (file.ends K.tag).length ∧ (bookOf h outs).given o = (List.range x.pos).map (fun i => requestOut K file debug o i)
  out : ∀ o, c.contexts.length ≤ o → (bookOf h outs).given o = []
  count : c.count = none ∨ c.count = some (file.count K.tag 0)

theorem given_add {K : CorpusKind R} {file : XElem} {debug : Bool} {b : CorpusBook R} {o : Nat} {x : CorpusCtx}
    (noStop : debug = true ∨ ∀ d ∈ file.ends K.tag, K.convert d ≠ .error .stopIteration)
    (h1 : x.pos ≤ (file.ends K.tag).length) (h2 : b.given o = (List.range x.pos).map (fun i => requestOut K file debug o i)) (p : Nat) :
    (b.add o (requestOut K file debug o x.pos)).given p =
      if p = o then (List.range (if x.pos < (file.ends K.tag).length then x.pos + 1 else x.pos)).map (fun i => requestOut K file debug o i) else b.given p := by
  unfold CorpusBook.add
  by_cases hs : (requestOut K file debug o x.pos).isStop = true
  · have := (requestOut_stop noStop).1 hs
    rw [if_pos hs]
    by_cases hp : p = o
    · subst hp; simp [h2, Nat.not_lt.2 this]
    · simp [hp]
  · have : x.pos < (file.ends K.tag).length := by
      by_contra hc
      exact hs ((requestOut_stop noStop).2 (by omega))
    rw [if_neg hs]
    by_cases hp : p = o
    · subst hp; simp [h2, this, List.range_succ]
    · simp [hp]

theorem add_opening (b : CorpusBook R) (o : Nat) (y : CorpusOut R) : (b.add o y).opening = b.opening ∧ (b.add o y).iters = b.iters := by
  unfold CorpusBook.add; split <;> exact ⟨rfl, rfl⟩

theorem inv_new (K : CorpusKind R) (path : String) (file : XElem) (name : Option String) (debug : Bool) :
    Inv K (new path file name debug).name file debug [] (new path file name debug) ([] : List (CorpusOut R)) := by
  constructor <;> try rfl
  · intro it hit; simp [new, reset] at hit
  · intro o x hx
    simp only [new, reset, List.nil_append] at hx
    cases o with
    | zero => simp at hx; subst hx; simp [bookOf]
    | succ n => simp at hx
  · intro o _; rfl
  · exact .inl rfl

theorem inv_step {K : CorpusKind R} {name : String} {file : XElem} {debug : Bool} {h : List CorpusCall} {c : XCorpus} {outs : List (CorpusOut R)}
    (noStop : debug = true ∨ ∀ d ∈ file.ends K.tag, K.convert d ≠ .error .stopIteration) (hl : outs.length = h.length)
    (I : Inv K name file debug h c outs) (x : CorpusCall) :
    Inv K name file debug (h ++ [x]) (c.call K x).1 (outs ++ [(c.call K x).2]) := by
  have key : ∀ (it : CorpusIter) (y : CorpusCtx), c.contexts[it.ctx]? = some y → it.ended = false → ∀ (c' : XCorpus), c'.name = name → c'.file = file → c'.debug = debug →
      c'.current = c.current → c'.contexts = (c.step K it).1.contexts → c'.count = c.count → c'.iters.map CorpusIter.ctx = c.iters.map CorpusIter.ctx →
      bookOf (h ++ [x]) (outs ++ [(c.step K it).2.2]) = (bookOf h outs).add it.ctx (c.step K it).2.2 →
      Inv K name file debug (h ++ [x]) c' (outs ++ [(c.step K it).2.2]) := by
    intro it y hy hend c' e1 e2 e3 e4 e5 e6 e7 hb
    obtain ⟨cs, it', hstep, hlen, hcs, -, -, -⟩ := step_spec K c it y hy hend
    rw [hstep] at hb e5 ⊢
    dsimp only at hb e5 ⊢
    rw [I.file_eq, I.debug_eq] at hb ⊢
    obtain ⟨p1, p2⟩ := I.pos it.ctx y hy
    have ha := add_opening (bookOf h outs) it.ctx (requestOut K file debug it.ctx y.pos)
    refine ⟨e1, e2, e3, ?_, ?_, ?_, ?_, ?_, ?_, ?_⟩
    · rw [e4, hb, ha.1]; exact I.cur
    · rw [e5, hb, ha.1, hlen]; exact I.len
    · rw [e7, hb, ha.2]; exact I.its
    · intro jt hjt
      have : jt.ctx ∈ c.iters.map CorpusIter.ctx := e7 ▸ List.mem_map_of_mem hjt
      obtain ⟨kt, hk, hkc⟩ := List.mem_map.1 this
      rw [e5, hlen, ← hkc]
      exact I.itsOk kt hk
    · intro o z hz
      rw [e5] at hz
      have hlt : o < c.contexts.length := by rw [← hlen]; exact (List.getElem?_eq_some_iff.1 hz).1
      obtain ⟨w, hw⟩ : ∃ w, c.contexts[o]? = some w := ⟨_, List.getElem?_eq_getElem hlt⟩
      obtain ⟨w', hw', hp, -⟩ := hcs o w hw
      have hzw : z = w' := by simpa [hz] using hw'
      subst hzw
      rw [hb, given_add noStop p1 p2]
      by_cases ho : o = it.ctx
      · subst ho
        have hwy : w = y := by simpa [hy] using hw.symm
        subst hwy
        rw [I.file_eq] at hp
        simp only [true_and] at hp
        rw [if_pos rfl, hp]
        refine ⟨?_, rfl⟩
        split <;> omega
      · rw [if_neg ho]
        simp only [ho, false_and, if_false] at hp
        rw [hp]
        exact I.pos o w hw
    · intro o ho
      rw [e5, hlen] at ho
      rw [hb, given_add noStop p1 p2]
      have : it.ctx < c.contexts.length := (List.getElem?_eq_some_iff.1 hy).1
      rw [if_neg (by omega)]
      exact I.out o ho
    · rw [e6]; exact I.count
  have hbook := bookOf_snoc h outs x (c.call K x).2 hl
  cases x with
  | reset =>
    simp only [call, CorpusBook.note] at hbook ⊢
    refine ⟨I.name_eq, I.file_eq, I.debug_eq, ?_, ?_, ?_, ?_, ?_, ?_, I.count⟩
    · rw [hbook]; simp only [reset]; exact I.len
    · rw [hbook]; simp only [reset, List.length_append, List.length_singleton]; rw [I.len]
    · rw [hbook]; exact I.its
    · intro it hit; simp only [reset, List.length_append]; have := I.itsOk it hit; omega
    · intro o y hy
      rw [hbook]
      simp only [reset] at hy
      by_cases ho : o < c.contexts.length
      · rw [List.getElem?_append_left ho] at hy
        exact I.pos o y hy
      · have hoe : o = c.contexts.length := by
          have := (List.getElem?_eq_some_iff.1 hy).1
          simp at this; omega
        subst hoe
        simp at hy
        subst hy
        simpa using I.out _ (Nat.le_refl _)
    · intro o ho
      rw [hbook]
      simp only [reset, List.length_append] at ho
      exact I.out o (by omega)
  | len =>
    simp only [call, CorpusBook.note] at hbook ⊢
    have hlen : (c.len K).1 = c ∨ (c.len K).1 = { c with count := some (file.count K.tag 0) } := by
      unfold XCorpus.len
      rcases I.count with hc | hc
      · rw [hc, I.file_eq]
        cases K.fixed c.name
        · exact .inr rfl
        · exact .inl rfl
      · rw [hc]; exact .inl rfl
    rcases hlen with e | e <;> rw [e] <;> refine ⟨I.name_eq, I.file_eq, I.debug_eq, ?_, ?_, ?_, I.itsOk, ?_, ?_, ?_⟩
    all_goals first
      | (rw [hbook]; first | exact I.cur | exact I.len | exact I.its)
      | (intro o y hy; rw [hbook]; exact I.pos o y hy)
      | (intro o ho; rw [hbook]; exact I.out o ho)
      | exact I.count
      | exact .inr rfl
  | iter =>
    simp only [call, CorpusBook.note] at hbook ⊢
    refine ⟨I.name_eq, I.file_eq, I.debug_eq, ?_, ?_, ?_, ?_, ?_, ?_, I.count⟩
    · rw [hbook]; exact I.cur
    · rw [hbook]; exact I.len
    · rw [hbook]; simp only [List.map_append, List.map_cons, List.map_nil, I.its, I.cur]
    · intro it hit
      rcases List.mem_append.1 hit with h' | h'
      · exact I.itsOk it h'
      · simp at h'; subst h'
        have := I.len; have := I.cur
        simp only; omega
    · intro o y hy; rw [hbook]; exact I.pos o y hy
    · intro o ho; rw [hbook]; exact I.out o ho
  | advance i =>
    simp only [call, CorpusBook.note] at hbook ⊢
    cases hi : c.iters[i]? with
    | none =>
      rw [hi] at hbook
      have hb : (bookOf h outs).iters[i]? = none := by rw [← I.its]; simpa using hi
      rw [hb] at hbook
      dsimp only at hbook ⊢
      refine ⟨I.name_eq, I.file_eq, I.debug_eq, ?_, ?_, ?_, I.itsOk, ?_, ?_, I.count⟩ <;> rw [hbook]
      all_goals first | exact I.cur | exact I.len | exact I.its | exact I.pos | exact I.out
    | some it =>
      rw [hi] at hbook
      have hb : (bookOf h outs).iters[i]? = some it.ctx := by rw [← I.its]; simp [hi]
      rw [hb] at hbook
      dsimp only at hbook ⊢
      obtain ⟨y, hy⟩ : ∃ y, c.contexts[it.ctx]? = some y := ⟨_, List.getElem?_eq_getElem (I.itsOk it (List.mem_of_getElem? hi))⟩
      cases hend : it.ended with
      | true =>
        have hs : c.step K it = (c, it, .error .stopIteration) := by unfold step; rw [hend]; rfl
        rw [hs] at hbook ⊢
        dsimp only at hbook ⊢
        simp only [CorpusBook.add, CorpusOut.isStop, if_true] at hbook
        have hset : c.iters.set i it = c.iters := by
          apply List.ext_getElem?
          intro k
          rw [List.getElem?_set]
          by_cases hk : i = k
          · subst hk; rw [if_pos rfl, if_pos (List.getElem?_eq_some_iff.1 hi).1, hi]
          · simp [hk]
        rw [hset]
        refine ⟨I.name_eq, I.file_eq, I.debug_eq, ?_, ?_, ?_, I.itsOk, ?_, ?_, I.count⟩ <;> rw [hbook]
        all_goals first | exact I.cur | exact I.len | exact I.its | exact I.pos | exact I.out
      | false =>
        obtain ⟨cs, it', hstep, -, -, hctx, -, -⟩ := step_spec K c it y hy hend
        refine key it y hy hend _ ?_ ?_ ?_ ?_ rfl ?_ ?_ hbook <;> rw [hstep]
        · exact I.name_eq
        · exact I.file_eq
        · exact I.debug_eq
        · dsimp only
          apply List.ext_getElem?
          intro k
          simp only [List.getElem?_map, List.getElem?_set]
          by_cases hk : i = k
          · subst hk; rw [if_pos rfl, if_pos (List.getElem?_eq_some_iff.1 hi).1, hi]; simp [hctx]
          · simp [hk]
  | next =>
    simp only [call, CorpusBook.note] at hbook ⊢
    obtain ⟨y, hy⟩ : ∃ y, c.contexts[c.current]? = some y := ⟨_, List.getElem?_eq_getElem (by rw [I.len, I.cur]; omega)⟩
    obtain ⟨cs, it', hstep, -⟩ := step_spec K c { ctx := c.current } y hy rfl
    refine key { ctx := c.current } y hy rfl _ ?_ ?_ ?_ ?_ rfl ?_ ?_ (by rw [hbook, I.cur]) <;> rw [hstep]
    · exact I.name_eq
    · exact I.file_eq
    · exact I.debug_eq

theorem inv_run {K : CorpusKind R} {file : XElem} {debug : Bool} (path : String) (name : Option String)
    (noStop : debug = true ∨ ∀ d ∈ file.ends K.tag, K.convert d ≠ .error .stopIteration) (h : List CorpusCall) :
    Inv K (new path file name debug).name file debug h ((new path file name debug).run K h).1 ((new path file name debug).run K h).2 := by
  induction h using List.reverseRecOn with
  | nil => exact inv_new K path file name debug
  | append_singleton xs x ih =>
    rw [run_snoc]
    exact inv_step noStop (run_length K _ xs) ih x

theorem snoc_get {α : Type} (l : List α) (a b : α) (n : Nat) : (l ++ [a])[n]? = some b ↔ l[n]? = some b ∨ (n = l.length ∧ a = b) := by
  rw [List.getElem?_append]
  by_cases h : n < l.length
  · rw [if_pos h]
    constructor
    · exact .inl
    · rintro (h' | ⟨h', -⟩)
      · exact h'
      · omega
  · rw [if_neg h, List.getElem?_eq_none (Nat.not_lt.1 h)]
    by_cases h0 : n = l.length
    · subst h0; simp
    · have : n - l.length ≠ 0 := by omega
      simp [h0, this]

/-- what has become of the iterators and the elements -/
structure InvE (h : List CorpusCall) (c : XCorpus) (outs : List (CorpusOut R)) : Prop where
  itsOk : ∀ it ∈ c.iters, it.ctx < c.contexts.length
  cur : c.current < c.contexts.length
  ended : ∀ i it, c.iters[i]? = some it → (it.ended = true ↔ IterEnded h outs i)
  endedPend : ∀ it ∈ c.iters, it.ended = true → it.pending = none
  noneBefore : ∀ i, c.iters[i]? = none → ∀ (n : Nat) (y : CorpusOut R), h[n]? = some (.advance i) → outs[n]? = some y → y = .none
  pend1 : c.debug = true → ∀ j it i, c.iters[j]? = some it → it.pending = some i → ∃ n : Nat, h[n]? = some (.advance j) ∧ outs[n]? = some (.item (.element it.ctx i))
  pend2 : ∀ (j n o i : Nat), h[n]? = some (.advance j) → outs[n]? = some (.item (.element o i)) →
    (∃ m, n < m ∧ h[m]? = some (.advance j)) ∨ ∃ it, c.iters[j]? = some it ∧ it.ctx = o ∧ it.pending = some i
  cleared : c.debug = true → ∀ o x i, c.contexts[o]? = some x → (i ∈ x.cleared ↔ PassedBy h outs o i)
  outEl : ∀ (n o i : Nat), outs[n]? = some (.item (.element o i)) → o < c.contexts.length

theorem iterEnded_snoc (h : List CorpusCall) (outs : List (CorpusOut R)) (x : CorpusCall) (y : CorpusOut R) (hl : outs.length = h.length) (i : Nat) :
    IterEnded (h ++ [x]) (outs ++ [y]) i ↔ IterEnded h outs i ∨ (x = .advance i ∧ y.isError = true) := by
  unfold IterEnded
  constructor
  · rintro ⟨n, z, h1, h2, h3⟩
    rw [snoc_get] at h1 h2
    rcases h1 with h1 | ⟨h1, h1'⟩
    · rcases h2 with h2 | ⟨h2, h2'⟩
      · exact .inl ⟨n, z, h1, h2, h3⟩
      · have := (List.getElem?_eq_some_iff.1 h1).1; omega
    · rcases h2 with h2 | ⟨h2, h2'⟩
      · have := (List.getElem?_eq_some_iff.1 h2).1; omega
      · exact .inr ⟨h1', h2' ▸ h3⟩
  · rintro (⟨n, z, h1, h2, h3⟩ | ⟨h1, h2⟩)
    · exact ⟨n, z, (snoc_get ..).2 (.inl h1), (snoc_get ..).2 (.inl h2), h3⟩
    · exact ⟨h.length, y, (snoc_get ..).2 (.inr ⟨rfl, h1⟩), (snoc_get ..).2 (.inr ⟨hl.symm, rfl⟩), h2⟩

theorem passedBy_snoc (h : List CorpusCall) (outs : List (CorpusOut R)) (x : CorpusCall) (y : CorpusOut R) (hl : outs.length = h.length) (o i : Nat) :
    PassedBy (h ++ [x]) (outs ++ [y]) o i ↔ PassedBy h outs o i ∨ ∃ j n : Nat, x = .advance j ∧ h[n]? = some (.advance j) ∧ outs[n]? = some (.item (.element o i)) := by
  unfold PassedBy
  constructor
  · rintro ⟨j, n, m, hnm, h1, h2, h3⟩
    rw [snoc_get] at h1 h2 h3
    have hn : n < h.length := by
      rcases h3 with h3 | ⟨h3, -⟩
      · have := (List.getElem?_eq_some_iff.1 h3).1; omega
      · omega
    have h1 := h1.resolve_right (by omega)
    have h2 := h2.resolve_right (by omega)
    rcases h3 with h3 | ⟨-, h3⟩
    · exact .inl ⟨j, n, m, hnm, h1, h2, h3⟩
    · exact .inr ⟨j, n, h3, h1, h2⟩
  · rintro (⟨j, n, m, hnm, h1, h2, h3⟩ | ⟨j, n, h1, h2, h3⟩)
    · exact ⟨j, n, m, hnm, (snoc_get ..).2 (.inl h1), (snoc_get ..).2 (.inl h2), (snoc_get ..).2 (.inl h3)⟩
    · exact ⟨j, n, h.length, (List.getElem?_eq_some_iff.1 h2).1, (snoc_get ..).2 (.inl h2), (snoc_get ..).2 (.inl h3), (snoc_get ..).2 (.inr ⟨rfl, h1⟩)⟩

theorem set_get {α : Type} {l : List α} {i : Nat} {a b : α} (h : l[i]? = some a) (k : Nat) (x : α) :
    (l.set i b)[k]? = some x ↔ (k = i ∧ x = b) ∨ (k ≠ i ∧ l[k]? = some x) := by
  rw [List.getElem?_set]
  by_cases hk : i = k
  · subst hk
    simp [(List.getElem?_eq_some_iff.1 h).1, eq_comm]
  · simp [hk, Ne.symm hk]

/-- a call which asks no iterator leaves the books of the iterators as they are -/
theorem InvE.other {h : List CorpusCall} {c c' : XCorpus} {outs : List (CorpusOut R)} (I : InvE h c outs) (hl : outs.length = h.length) {x : CorpusCall} {y : CorpusOut R}
    (hx : ∀ j, x ≠ .advance j) (hd : c'.debug = c.debug) (hcur : c'.current < c'.contexts.length) (hlen : c.contexts.length ≤ c'.contexts.length)
    (hi : c'.iters = c.iters ∨ c'.iters = c.iters ++ [{ ctx := c.current }])
    (hc : ∀ o z, c'.contexts[o]? = some z → (∃ w, c.contexts[o]? = some w ∧ z.cleared = w.cleared) ∨ (c.contexts.length ≤ o ∧ z.cleared = []))
    (hy : ∀ o i, y = .item (.element o i) → o < c'.contexts.length) :
    InvE (h ++ [x]) c' (outs ++ [y]) := by
  have hget : ∀ (k : Nat) it, c'.iters[k]? = some it → c.iters[k]? = some it ∨ (c.iters[k]? = none ∧ it = { ctx := c.current }) := by
    intro k it hk
    rcases hi with e | e
    · exact .inl (e ▸ hk)
    · rw [e, snoc_get] at hk
      rcases hk with hk | ⟨hk, hk'⟩
      · exact .inl hk
      · exact .inr ⟨by rw [hk]; simp, hk'.symm⟩
  have hget' : ∀ (k : Nat) it, c.iters[k]? = some it → c'.iters[k]? = some it := by
    intro k it hk
    rcases hi with e | e
    · rw [e]; exact hk
    · rw [e, snoc_get]; exact .inl hk
  have hadv : ∀ (n : Nat) j, (h ++ [x])[n]? = some (.advance j) → h[n]? = some (.advance j) := by
    intro n j hn
    rw [snoc_get] at hn
    exact hn.resolve_right (fun hh => hx j hh.2)
  have hout : ∀ (n : Nat) j z, (h ++ [x])[n]? = some (.advance j) → (outs ++ [y])[n]? = some z → outs[n]? = some z := by
    intro n j z h1 h2
    have := (List.getElem?_eq_some_iff.1 (hadv n j h1)).1
    rw [snoc_get] at h2
    exact h2.resolve_right (by omega)
  constructor
  · intro it hit
    obtain ⟨k, hk⟩ := List.getElem?_of_mem hit
    rcases hget k it hk with h1 | ⟨-, h1⟩
    · have := I.itsOk it (List.mem_of_getElem? h1); omega
    · rw [h1]; have := I.cur; simp only; omega
  · exact hcur
  rotate_left
  · intro it hit he
    obtain ⟨k, hk⟩ := List.getElem?_of_mem hit
    rcases hget k it hk with h1 | ⟨-, h1⟩
    · exact I.endedPend it (List.mem_of_getElem? h1) he
    · rw [h1]
  rotate_right
  · intro i it hit
    rw [iterEnded_snoc _ _ _ _ hl]
    simp only [hx i, false_and, or_false]
    rcases hget i it hit with h1 | ⟨h0, h1⟩
    · exact I.ended i it h1
    · subst h1
      simp only [Bool.false_eq_true, false_iff]
      rintro ⟨n, z, h2, h3, h4⟩
      rw [I.noneBefore i h0 n z h2 h3] at h4
      simp [CorpusOut.isError] at h4
  · intro i hin n z h1 h2
    refine I.noneBefore i ?_ n z (hadv n i h1) (hout n i z h1 h2)
    cases hci : c.iters[i]? with
    | none => rfl
    | some it => rw [hget' i it hci] at hin; cases hin
  · intro hdb j it i hit hp
    rcases hget j it hit with h1 | ⟨-, h1⟩
    · obtain ⟨n, h2, h3⟩ := I.pend1 (hd ▸ hdb) j it i h1 hp
      exact ⟨n, (snoc_get ..).2 (.inl h2), (snoc_get ..).2 (.inl h3)⟩
    · subst h1; simp at hp
  · intro j n o i h1 h2
    rcases I.pend2 j n o i (hadv n j h1) (hout n j _ h1 h2) with ⟨m, hm, hm'⟩ | ⟨it, h3, h4⟩
    · exact .inl ⟨m, hm, (snoc_get ..).2 (.inl hm')⟩
    · exact .inr ⟨it, hget' j it h3, h4⟩
  · intro hdb o z i hz
    rw [passedBy_snoc _ _ _ _ hl]
    simp only [hx, false_and, exists_false, or_false]
    rcases hc o z hz with ⟨w, hw, hzw⟩ | ⟨ho, hzw⟩
    · rw [hzw]; exact I.cleared (hd ▸ hdb) o w i hw
    · rw [hzw]
      simp only [List.not_mem_nil, false_iff]
      rintro ⟨j, n, m, -, -, h2, -⟩
      have := I.outEl n o i h2
      omega
  · intro n o i h2
    rw [snoc_get] at h2
    rcases h2 with h2 | ⟨-, h2⟩
    · have := I.outEl n o i h2; omega
    · exact hy o i h2

theorem requestOut_element {K : CorpusKind R} {file : XElem} {debug : Bool} {o pos p i : Nat}
    (h : requestOut K file debug o pos = .item (.element p i)) : p = o ∧ i = pos ∧ debug = true := by
  unfold requestOut at h
  cases hd : (file.ends K.tag)[pos]? with
  | none => simp [hd] at h
  | some d =>
    simp only [hd, documentOut] at h
    by_cases hb : debug = true
    · simp [hb] at h; exact ⟨h.1.symm, h.2.symm, hb⟩
    · simp only [hb, if_false, Bool.false_eq_true] at h
      cases hk : K.convert d <;> simp [hk] at h

theorem requestOut_pending {K : CorpusKind R} {file : XElem} {o pos : Nat} (h : (requestOut K file true o pos).isError = false) :
    requestOut K file true o pos = .item (.element o pos) := by
  unfold requestOut at h ⊢
  cases hd : (file.ends K.tag)[pos]? with
  | none => simp [hd, CorpusOut.isError] at h
  | some d => simp [documentOut]

theorem invE_step {K : CorpusKind R} {h : List CorpusCall} {c : XCorpus} {outs : List (CorpusOut R)} (hl : outs.length = h.length) (I : InvE h c outs) (x : CorpusCall) :
    InvE (h ++ [x]) (c.call K x).1 (outs ++ [(c.call K x).2]) := by
  cases x with
  | reset =>
    refine I.other hl (by simp) rfl ?_ ?_ (.inl rfl) ?_ (by intro o i h; simp [call] at h)
    · simp [call, reset]
    · simp [call, reset]
    · intro o z hz
      simp only [call, reset, snoc_get] at hz
      rcases hz with hz | ⟨hz, hz'⟩
      · exact .inl ⟨z, hz, rfl⟩
      · exact .inr ⟨by omega, by rw [← hz']⟩
  | len =>
    have hlen : (c.len K).1 = c ∨ ∃ n, (c.len K).1 = { c with count := n } := by
      unfold XCorpus.len
      split
      · exact .inl rfl
      · split
        · exact .inl rfl
        · exact .inr ⟨_, rfl⟩
    simp only [call]
    rcases hlen with e | ⟨n, e⟩ <;> rw [e] <;>
      exact I.other hl (by simp) rfl I.cur (Nat.le_refl _) (.inl rfl) (fun o z hz => .inl ⟨z, hz, rfl⟩) (by intro o i h; simp at h)
  | iter =>
    exact I.other hl (by simp) rfl I.cur (Nat.le_refl _) (.inr rfl) (fun o z hz => .inl ⟨z, hz, rfl⟩) (by intro o i h; simp [call] at h)
  | next =>
    obtain ⟨y, hy⟩ : ∃ y, c.contexts[c.current]? = some y := ⟨_, List.getElem?_eq_getElem I.cur⟩
    obtain ⟨cs, it', hstep, hlen, hcs, -⟩ := step_spec K c { ctx := c.current } y hy rfl
    simp only [call, hstep]
    refine I.other hl (by simp) rfl ?_ ?_ (.inl rfl) ?_ ?_
    · dsimp only; rw [hlen]; exact I.cur
    · dsimp only; exact Nat.le_of_eq hlen.symm
    · intro o z hz
      dsimp only at hz
      have hlt : o < c.contexts.length := by rw [← hlen]; exact (List.getElem?_eq_some_iff.1 hz).1
      obtain ⟨w', hw', -, hcl⟩ := hcs o _ (List.getElem?_eq_getElem hlt)
      rw [hz] at hw'
      cases hw'
      refine .inl ⟨_, List.getElem?_eq_getElem hlt, ?_⟩
      rw [hcl]; simp [emptiedBy]
    · intro o i hoi
      rw [(requestOut_element hoi).1]
      dsimp only; rw [hlen]; exact I.cur
  | advance j =>
    simp only [call]
    have hself : ∀ (it : CorpusIter), c.iters[j]? = some it → c.iters.set j it = c.iters := by
      intro it hi
      apply List.ext_getElem?
      intro k
      rw [List.getElem?_set]
      by_cases hk : j = k
      · subst hk; rw [if_pos rfl, if_pos (List.getElem?_eq_some_iff.1 hi).1, hi]
      · simp [hk]
    have hout : ∀ (n : Nat) (y z : CorpusOut R), h[n]? = some (.advance j) ∨ n < h.length → (outs ++ [y])[n]? = some z → outs[n]? = some z := by
      intro n y z h1 h2
      have : n < h.length := by
        rcases h1 with h1 | h1
        · exact (List.getElem?_eq_some_iff.1 h1).1
        · exact h1
      rw [snoc_get] at h2
      exact h2.resolve_right (by omega)
    cases hi : c.iters[j]? with
    | none =>
      dsimp only
      have h0 : ∀ (n o i : Nat), h[n]? = some (.advance j) → outs[n]? = some (.item (.element o i)) → False := by
        intro n o i h1 h2
        have := I.noneBefore j hi n _ h1 h2
        cases this
      constructor
      · exact I.itsOk
      · exact I.cur
      · intro i it hit
        rw [iterEnded_snoc _ _ _ _ hl]
        simpa [CorpusOut.isError] using I.ended i it hit
      · exact I.endedPend
      · intro i hin n z h1 h2
        rw [snoc_get] at h1 h2
        rcases h2 with h2 | ⟨-, h2⟩
        · have := (List.getElem?_eq_some_iff.1 h2).1
          exact I.noneBefore i hin n z (h1.resolve_right (by omega)) h2
        · exact h2.symm
      · intro hdb k it i hit hp
        obtain ⟨n, h2, h3⟩ := I.pend1 hdb k it i hit hp
        exact ⟨n, (snoc_get ..).2 (.inl h2), (snoc_get ..).2 (.inl h3)⟩
      · intro k n o i h1 h2
        rw [snoc_get] at h1 h2
        rcases h2 with h2 | ⟨-, h2⟩
        · have := (List.getElem?_eq_some_iff.1 h2).1
          rcases I.pend2 k n o i (h1.resolve_right (by omega)) h2 with ⟨m, hm, hm'⟩ | h3
          · exact .inl ⟨m, hm, (snoc_get ..).2 (.inl hm')⟩
          · exact .inr h3
        · cases h2
      · intro hdb o z i hz
        rw [passedBy_snoc _ _ _ _ hl, I.cleared hdb o z i hz]
        constructor
        · exact .inl
        · rintro (h1 | ⟨j', n, h1, h2, h3⟩)
          · exact h1
          · cases h1; exact (h0 n o i h2 h3).elim
      · intro n o i h2
        rw [snoc_get] at h2
        rcases h2 with h2 | ⟨-, h2⟩
        · exact I.outEl n o i h2
        · cases h2
    | some it =>
      dsimp only
      have hmem := List.mem_of_getElem? hi
      cases hend : it.ended with
      | true =>
        have hs : c.step K it = (c, it, .error .stopIteration) := by unfold step; rw [hend]; rfl
        rw [hs]
        dsimp only
        rw [hself it hi]
        constructor
        · exact I.itsOk
        · exact I.cur
        · intro i jt hit
          rw [iterEnded_snoc _ _ _ _ hl, I.ended i jt hit]
          constructor
          · exact .inl
          · rintro (h1 | ⟨h1, -⟩)
            · exact h1
            · cases h1; exact (I.ended j it hi).1 hend
        · exact I.endedPend
        · intro i hin n z h1 h2
          rw [snoc_get] at h1 h2
          rcases h2 with h2 | ⟨h2, -⟩
          · have := (List.getElem?_eq_some_iff.1 h2).1
            exact I.noneBefore i hin n z (h1.resolve_right (by omega)) h2
          · rcases h1 with h1 | ⟨-, h1⟩
            · have := (List.getElem?_eq_some_iff.1 h1).1; omega
            · cases h1; rw [hi] at hin; cases hin
        · intro hdb k jt i hit hp
          obtain ⟨n, h2, h3⟩ := I.pend1 hdb k jt i hit hp
          exact ⟨n, (snoc_get ..).2 (.inl h2), (snoc_get ..).2 (.inl h3)⟩
        · intro k n o i h1 h2
          rw [snoc_get] at h1 h2
          rcases h2 with h2 | ⟨-, h2⟩
          · have := (List.getElem?_eq_some_iff.1 h2).1
            rcases I.pend2 k n o i (h1.resolve_right (by omega)) h2 with ⟨m, hm, hm'⟩ | h3
            · exact .inl ⟨m, hm, (snoc_get ..).2 (.inl hm')⟩
            · exact .inr h3
          · cases h2
        · intro hdb o z i hz
          rw [passedBy_snoc _ _ _ _ hl, I.cleared hdb o z i hz]
          constructor
          · exact .inl
          · rintro (h1 | ⟨j', n, h1, h2, h3⟩)
            · exact h1
            · cases h1
              rcases I.pend2 j n o i h2 h3 with ⟨m, hm, hm'⟩ | ⟨jt, h4, -, h5⟩
              · exact ⟨j, n, m, hm, h2, h3, hm'⟩
              · rw [hi] at h4; cases h4
                rw [I.endedPend it hmem hend] at h5; cases h5
        · intro n o i h2
          rw [snoc_get] at h2
          rcases h2 with h2 | ⟨-, h2⟩
          · exact I.outEl n o i h2
          · cases h2
      | false =>
        obtain ⟨y, hy⟩ : ∃ y, c.contexts[it.ctx]? = some y := ⟨_, List.getElem?_eq_getElem (I.itsOk it hmem)⟩
        obtain ⟨cs, it', hstep, hlen, hcs, hctx, hended, hpend⟩ := step_spec K c it y hy hend
        rw [hstep]
        dsimp only
        set out : CorpusOut R := requestOut K c.file c.debug it.ctx y.pos with hout'
        constructor
        · intro jt hjt
          dsimp only at hjt ⊢
          rw [hlen]
          obtain ⟨k, hk⟩ := List.getElem?_of_mem hjt
          rw [set_get hi] at hk
          rcases hk with ⟨-, hk⟩ | ⟨-, hk⟩
          · rw [hk, hctx]; exact I.itsOk it hmem
          · exact I.itsOk jt (List.mem_of_getElem? hk)
        · dsimp only; rw [hlen]; exact I.cur
        · intro i jt hit
          dsimp only at hit
          rw [set_get hi] at hit
          rw [iterEnded_snoc _ _ _ _ hl]
          rcases hit with ⟨rfl, rfl⟩ | ⟨hne, hit⟩
          · have : ¬ IterEnded h outs i := fun hh => by rw [(I.ended i it hi).2 hh] at hend; cases hend
            rw [hended]
            simp [this]
          · rw [I.ended i jt hit]
            simp [Ne.symm hne]
        · intro jt hjt he
          dsimp only at hjt
          obtain ⟨k, hk⟩ := List.getElem?_of_mem hjt
          rw [set_get hi] at hk
          rcases hk with ⟨-, hk⟩ | ⟨-, hk⟩
          · rw [hk, hpend]
            rw [hk, hended] at he
            rw [if_pos he]
          · exact I.endedPend jt (List.mem_of_getElem? hk) he
        · intro i hin n z h1 h2
          dsimp only at hin
          have hij : i ≠ j := by
            rintro rfl
            rw [List.getElem?_set_self (List.getElem?_eq_some_iff.1 hi).1] at hin; cases hin
          rw [List.getElem?_set_ne (Ne.symm hij)] at hin
          rw [snoc_get] at h1
          rcases h1 with h1 | ⟨-, h1⟩
          · exact I.noneBefore i hin n z h1 (hout n _ z (.inr (List.getElem?_eq_some_iff.1 h1).1) h2)
          · cases h1; exact (hij rfl).elim
        · intro hdb k jt i hit hp
          dsimp only at hit hdb
          rw [set_get hi] at hit
          rcases hit with ⟨rfl, rfl⟩ | ⟨hne, hit⟩
          · refine ⟨h.length, (snoc_get ..).2 (.inr ⟨rfl, rfl⟩), (snoc_get ..).2 (.inr ⟨hl.symm, ?_⟩)⟩
            rw [hpend] at hp
            split at hp
            · cases hp
            · rename_i herr
              cases hp
              rw [hctx]
              rw [hdb] at hout'
              rw [hout'] at herr ⊢
              exact requestOut_pending (by simpa using herr)
          · obtain ⟨n, h2, h3⟩ := I.pend1 hdb k jt i hit hp
            exact ⟨n, (snoc_get ..).2 (.inl h2), (snoc_get ..).2 (.inl h3)⟩
        · intro k n o i h1 h2
          rw [snoc_get] at h1
          rcases h1 with h1 | ⟨hn, h1⟩
          · have hlt := (List.getElem?_eq_some_iff.1 h1).1
            have h2' := hout n _ _ (.inr hlt) h2
            by_cases hkj : k = j
            · exact .inl ⟨h.length, hlt, (snoc_get ..).2 (.inr ⟨rfl, by rw [hkj]⟩)⟩
            · rcases I.pend2 k n o i h1 h2' with ⟨m, hm, hm'⟩ | ⟨jt, h3, h4⟩
              · exact .inl ⟨m, hm, (snoc_get ..).2 (.inl hm')⟩
              · exact .inr ⟨jt, (set_get hi ..).2 (.inr ⟨hkj, h3⟩), h4⟩
          · cases h1
            rw [snoc_get] at h2
            have h2' := (h2.resolve_left (fun hh => by have := (List.getElem?_eq_some_iff.1 hh).1; omega)).2
            refine .inr ⟨it', (set_get hi ..).2 (.inl ⟨rfl, rfl⟩), ?_, ?_⟩
            · rw [hctx]; exact (requestOut_element (hout' ▸ h2')).1.symm
            · have he : out.isError = false := by rw [h2']; rfl
              rw [hpend, he]
              simp [(requestOut_element (hout' ▸ h2')).2.1]
        · intro hdb o z i hz
          dsimp only at hz hdb
          have hlt : o < c.contexts.length := by rw [← hlen]; exact (List.getElem?_eq_some_iff.1 hz).1
          obtain ⟨w', hw', -, hcl⟩ := hcs o _ (List.getElem?_eq_getElem hlt)
          rw [hz] at hw'
          cases hw'
          rw [passedBy_snoc _ _ _ _ hl, hcl, List.mem_append, I.cleared hdb o _ i (List.getElem?_eq_getElem hlt)]
          have he : i ∈ emptiedBy it o ↔ o = it.ctx ∧ it.pending = some i := by
            unfold emptiedBy
            by_cases ho : o = it.ctx
            · simp [ho]
            · simp [ho]
          rw [he]
          constructor
          · rintro (⟨h1, h2⟩ | h1)
            · obtain ⟨n, h3, h4⟩ := I.pend1 hdb j it i hi h2
              exact .inr ⟨j, n, rfl, h3, h1 ▸ h4⟩
            · exact .inl h1
          · rintro (h1 | ⟨j', n, h1, h2, h3⟩)
            · exact .inr h1
            · cases h1
              rcases I.pend2 j n o i h2 h3 with ⟨m, hm, hm'⟩ | ⟨jt, h4, h5, h6⟩
              · exact .inr ⟨j, n, m, hm, h2, h3, hm'⟩
              · rw [hi] at h4; cases h4
                exact .inl ⟨h5.symm, h6⟩
        · intro n o i h2
          dsimp only
          rw [hlen]
          rw [snoc_get] at h2
          rcases h2 with h2 | ⟨-, h2⟩
          · exact I.outEl n o i h2
          · rw [hout'] at h2
            rw [(requestOut_element h2).1]; exact I.itsOk it hmem

theorem invE_run {K : CorpusKind R} (path : String) (file : XElem) (name : Option String) (debug : Bool) (h : List CorpusCall) :
    InvE h ((new path file name debug).run K h).1 ((new path file name debug).run K h).2 := by
  induction h using List.reverseRecOn with
  | nil =>
    have hi : ((new path file name debug).run K []).1.iters = [] := rfl
    constructor
    · rw [hi]; intro it hit; cases hit
    · exact Nat.zero_lt_one
    · rw [hi]; intro i it hit; simp at hit
    · rw [hi]; intro it hit; cases hit
    · intro i _ n y h1; simp at h1
    · rw [hi]; intro _ j it i hit; simp at hit
    · intro j n o i h1; simp at h1
    · intro _ o x i hx
      simp only [run, new, reset, List.nil_append] at hx
      have : x.cleared = [] := by
        cases o with
        | zero => simp at hx; subst hx; rfl
        | succ n => simp at hx
      rw [this]
      simp [PassedBy]
    · intro n _ _ h2; simp [run] at h2
  | append_singleton xs x ih =>
    rw [run_snoc]
    exact invE_step (run_length K _ xs) ih x

end XCorpus
end Dg
