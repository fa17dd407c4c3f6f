import Verif.Lemmas.CorpusIter
import Verif.Lemmas.NoStop
import Verif.Lemmas.Corpora
import Verif.Props.C63

/-!
**C76** Reading a corpus document by document (`ExportXMLCorpus`, `URMLCorpus`): for every history of calls of `iter`, `next`, `len` and `_reset_corpus_iterator`, each opening of the file gives its documents in the order of the file, each once, whoever asks for them; `len` is the number of documents and disturbs nothing; a loop gives the documents which are left, and all of them after a reset.
-/

namespace Dg
open XCorpus Dict

variable {R : Type}

/-- no document makes the reader raise StopIteration (with `debug` nothing is read) -/
def CorpusNoStop (K : CorpusKind R) (debug : Bool) (file : XElem) : Prop := debug = true ∨ ∀ d ∈ documentsOf K.tag file, K.convert d ≠ .error .stopIteration

/-- every document can be read (with `debug` nothing is read) -/
def CorpusReadable (K : CorpusKind R) (debug : Bool) (file : XElem) : Prop := debug = true ∨ ∀ d ∈ documentsOf K.tag file, ∃ r, K.convert d = .ok r

theorem CorpusReadable.noStop {K : CorpusKind R} {debug : Bool} {file : XElem} (h : CorpusReadable K debug file) : CorpusNoStop K debug file := by
  refine h.imp_right (fun h d hd => ?_)
  obtain ⟨r, hr⟩ := h d hd
  rw [hr]; exact fun h => by cases h

theorem requestOut_documents {K : CorpusKind R} {file : XElem} (hu : Unnested K.tag file) (debug : Bool) (o pos : Nat) :
    requestOut K file debug o pos = match (documentsOf K.tag file)[pos]? with
      | none => .error .stopIteration
      | some d => documentOut K debug o pos d := by
  unfold requestOut; rw [ends_documents hu]
  cases (documentsOf K.tag file)[pos]? <;> rfl

theorem range_documents {K : CorpusKind R} {file : XElem} (hu : Unnested K.tag file) (debug : Bool) (o k : Nat) (hk : k ≤ (documentsOf K.tag file).length) :
    (List.range k).map (fun i => requestOut K file debug o i) = ((documentsOf K.tag file).take k).zipIdx.map (fun p => documentOut K debug o p.2 p.1) := by
  apply List.ext_getElem?
  intro n
  simp only [List.getElem?_map, List.getElem?_zipIdx, requestOut_documents hu]
  by_cases hn : n < k
  · have : n < (documentsOf K.tag file).length := by omega
    simp [List.getElem?_range hn, List.getElem?_take, hn, this]
  · have : k ≤ n := by omega
    simp [this]

/-- **C76** The documents given from an opening of the file are the first ones of the file, in its order, each once: whatever was asked before, in between and from other openings. -/
theorem c76_order_partial (K : CorpusKind R) (path : String) (file : XElem) (name : Option String) (debug : Bool) (hu : Unnested K.tag file) (hs : CorpusNoStop K debug file)
    (h : List CorpusCall) (o : Nat) :
    ∃ k ≤ (documentsOf K.tag file).length,
      (bookOf h ((new path file name debug).run K h).2).given o = ((documentsOf K.tag file).take k).zipIdx.map (fun p => documentOut K debug o p.2 p.1) := by
  have I := inv_run (K := K) (file := file) (debug := debug) path name (by rw [ends_documents hu]; exact hs) h
  by_cases ho : o < ((new path file name debug).run K h).1.contexts.length
  · obtain ⟨h1, h2⟩ := I.pos o _ (List.getElem?_eq_getElem ho)
    rw [ends_documents hu] at h1
    exact ⟨_, h1, by rw [h2, range_documents hu _ _ _ h1]⟩
  · exact ⟨0, Nat.zero_le _, by rw [I.out o (by omega)]; rfl⟩

/-- **C76** `next()` gives the first document which has not been given from the current opening yet, whoever got the ones before it, and StopIteration if all of them have been given. -/
theorem c76_next_partial (K : CorpusKind R) (path : String) (file : XElem) (name : Option String) (debug : Bool) (hu : Unnested K.tag file) (hs : CorpusNoStop K debug file)
    (h : List CorpusCall) :
    ∃ y, ((new path file name debug).run K (h ++ [.next])).2 = ((new path file name debug).run K h).2 ++ [y] ∧
      ∀ b, b = bookOf h ((new path file name debug).run K h).2 → y = match (documentsOf K.tag file)[(b.given b.opening).length]? with
        | none => .error .stopIteration
        | some d => documentOut K debug b.opening (b.given b.opening).length d := by
  have I := inv_run (K := K) (file := file) (debug := debug) path name (by rw [ends_documents hu]; exact hs) h
  refine ⟨_, by rw [run_snoc], ?_⟩
  rintro b rfl
  obtain ⟨x, hx⟩ : ∃ x, ((new path file name debug).run K h).1.contexts[((new path file name debug).run K h).1.current]? = some x :=
    ⟨_, List.getElem?_eq_getElem (by rw [I.len, I.cur]; omega)⟩
  obtain ⟨cs, it', hstep, -⟩ := step_spec K _ { ctx := ((new path file name debug).run K h).1.current } x hx rfl
  obtain ⟨-, hg⟩ := I.pos _ x hx
  simp only [call, hstep]
  rw [← I.cur, hg, List.length_map, List.length_range, I.file_eq, I.debug_eq, requestOut_documents hu]

/-- **C76** An iterator gives the first document which has not been given from its opening yet, whoever got the ones before it, and StopIteration if all of them have been given; and StopIteration ever after it has raised an exception. -/
theorem c76_iterator_partial (K : CorpusKind R) (path : String) (file : XElem) (name : Option String) (debug : Bool) (hu : Unnested K.tag file) (hs : CorpusNoStop K debug file)
    (h : List CorpusCall) (i o : Nat) (hi : (bookOf h ((new path file name debug).run K h).2).iters[i]? = some o) :
    ∃ y, ((new path file name debug).run K (h ++ [.advance i])).2 = ((new path file name debug).run K h).2 ++ [y] ∧
      (IterEnded h ((new path file name debug).run K h).2 i → y = .error .stopIteration) ∧
      (¬ IterEnded h ((new path file name debug).run K h).2 i → ∀ n, n = ((bookOf h ((new path file name debug).run K h).2).given o).length →
        y = match (documentsOf K.tag file)[n]? with
          | none => .error .stopIteration
          | some d => documentOut K debug o n d) := by
  have I := inv_run (K := K) (file := file) (debug := debug) path name (by rw [ends_documents hu]; exact hs) h
  have E := invE_run (K := K) path file name debug h
  rw [← I.its, List.getElem?_map, Option.map_eq_some_iff] at hi
  obtain ⟨it, hit, rfl⟩ := hi
  refine ⟨_, by rw [run_snoc], fun he => ?_, ?_⟩
  · have := (E.ended i it hit).2 he
    simp only [call, hit]
    unfold step
    rw [this]; rfl
  · rintro he n rfl
    obtain ⟨x, hx⟩ : ∃ x, ((new path file name debug).run K h).1.contexts[it.ctx]? = some x :=
      ⟨_, List.getElem?_eq_getElem (I.itsOk it (List.mem_of_getElem? hit))⟩
    have hf : it.ended = false := by
      cases hb : it.ended with
      | false => rfl
      | true => exact (he ((E.ended i it hit).1 hb)).elim
    obtain ⟨cs, it', hstep, -⟩ := step_spec K _ it x hx hf
    obtain ⟨-, hg⟩ := I.pos _ x hx
    simp only [call, hit, hstep]
    rw [hg, List.length_map, List.length_range, I.file_eq, I.debug_eq, requestOut_documents hu]

theorem name_step (K : CorpusKind R) (c : XCorpus) (it : CorpusIter) : (c.step K it).1.name = c.name := by
  have hr : (c.resume it).name = c.name := by
    unfold resume
    split <;> rfl
  unfold step
  split
  · rfl
  · dsimp only
    split
    · exact hr
    · split
      · exact hr
      · split
        · exact hr
        · split <;> exact hr

theorem name_call (K : CorpusKind R) (c : XCorpus) (x : CorpusCall) : (c.call K x).1.name = c.name := by
  cases x with
  | reset => rfl
  | len =>
    show (c.len K).1.name = c.name
    unfold len
    split
    · rfl
    · split <;> rfl
  | iter => rfl
  | advance i =>
    unfold call
    dsimp only
    split
    · rfl
    · exact name_step K c _
  | next => exact name_step K c _

/-- **C76** The name of a corpus is the given one or, if none (or an empty one) is given, the name of the file without its directory, and no call changes it. -/
theorem c76_name (K : CorpusKind R) (path : String) (file : XElem) (name : Option String) (debug : Bool) (h : List CorpusCall) :
    (∀ n, name = some n → n ≠ "" → ((new path file name debug).run K h).1.name = n) ∧
    ((name = none ∨ name = some "") → ∀ b : String, '/' ∉ b.toList → (∀ dir : String, path = dir ++ "/" ++ b → ((new path file name debug).run K h).1.name = b) ∧
      (path = b → ((new path file name debug).run K h).1.name = b)) := by
  have hrun : ((new path file name debug).run K h).1.name = (new path file name debug).name := by
    induction h using List.reverseRecOn with
    | nil => rfl
    | append_singleton h x ih => rw [← ih, run_snoc]; exact name_call K _ x
  constructor
  · rintro n rfl hn
    rw [hrun]
    show (if n = "" then _ else n) = n
    rw [if_neg hn]
  · intro hname b hb
    have hnew : (new path file name debug).name = String.ofList (basename path.toList) := by
      rcases hname with rfl | rfl <;> rfl
    constructor
    · rintro dir rfl
      rw [hrun, hnew, String.toList_append, String.toList_append]
      rw [show dir.toList ++ "/".toList ++ b.toList = dir.toList ++ '/' :: b.toList from by simp, basename_file _ hb, String.ofList_toList]
    · rintro rfl
      rw [hrun, hnew]
      unfold basename
      rw [List.takeWhile_eq_self_iff.2, List.reverse_reverse, String.ofList_toList]
      intro c hc
      simp only [decide_eq_true_eq]
      rintro rfl
      exact hb (List.mem_reverse.1 hc)

/-- **C76** `len` is the number of the documents in the file, at any time (unless the number is written in the code, see `c76_fails_len`). -/
theorem c76_len_partial (K : CorpusKind R) (path : String) (file : XElem) (name : Option String) (debug : Bool) (hf : K.fixed (new path file name debug).name = none)
    (h : List CorpusCall) (n : Nat) (hn : h[n]? = some .len) :
    ((new path file name debug).run K h).2[n]? = some (.number (documentsOf K.tag file).length) := by
  have key : ∀ (h : List CorpusCall) (c : XCorpus), c.file = file → K.fixed c.name = none → (c.count = none ∨ c.count = some (file.count K.tag 0)) → ∀ n : Nat, h[n]? = some .len →
      (c.run K h).2[n]? = some (.number (documentsOf K.tag file).length) := by
    clear hn n h
    have hstep : ∀ (c : XCorpus) (it : CorpusIter), (c.step K it).1.file = c.file ∧ (c.step K it).1.name = c.name ∧ (c.step K it).1.count = c.count := by
      intro c it
      have hr : (c.resume it).file = c.file ∧ (c.resume it).name = c.name ∧ (c.resume it).count = c.count := by
        unfold resume; split <;> exact ⟨rfl, rfl, rfl⟩
      unfold step
      split
      · exact ⟨rfl, rfl, rfl⟩
      · dsimp only
        split
        · exact hr
        · split
          · exact hr
          · split
            · exact hr
            · split <;> exact hr
    intro h
    induction h with
    | nil => intro c _ _ _ n hn; simp at hn
    | cons x xs ih =>
      intro c h1 h2 h3 n hn
      have hcall : (c.call K x).1.file = file ∧ K.fixed (c.call K x).1.name = none ∧ ((c.call K x).1.count = none ∨ (c.call K x).1.count = some (file.count K.tag 0)) ∧
          (x = .len → (c.call K x).2 = .number (documentsOf K.tag file).length) := by
        cases x with
        | reset => exact ⟨h1, h2, h3, fun h => by cases h⟩
        | iter => exact ⟨h1, h2, h3, fun h => by cases h⟩
        | next =>
          obtain ⟨a, b, d⟩ := hstep c { ctx := c.current }
          exact ⟨a.trans h1, by simp only [call]; rw [b]; exact h2, by simp only [call]; rw [d]; exact h3, fun h => by cases h⟩
        | advance i =>
          simp only [call]
          cases c.iters[i]? with
          | none => exact ⟨h1, h2, h3, fun h => by cases h⟩
          | some it =>
            obtain ⟨a, b, d⟩ := hstep c it
            exact ⟨a.trans h1, by dsimp only; rw [b]; exact h2, by dsimp only; rw [d]; exact h3, fun h => by cases h⟩
        | len =>
          simp only [call, XCorpus.len]
          rcases h3 with h3 | h3
          · rw [h3, h2, h1]
            refine ⟨rfl, h2, .inr rfl, fun _ => ?_⟩
            rw [count_documents]
          · rw [h3]
            refine ⟨h1, h2, .inr h3, fun _ => ?_⟩
            rw [count_documents]
      obtain ⟨a, b, d, e⟩ := hcall
      cases n with
      | zero =>
        simp only [List.getElem?_cons_zero, Option.some.injEq] at hn
        simp only [run, List.getElem?_cons_zero, e hn]
      | succ n =>
        simp only [List.getElem?_cons_succ] at hn
        simp only [run, List.getElem?_cons_succ]
        exact ih _ a b d n hn
  exact key h _ rfl hf (.inl rfl) n hn

/-- a corpus with another stored length -/
def XCorpus.withCount (c : XCorpus) (n : Option Nat) : XCorpus := { c with count := n }

theorem step_withCount (K : CorpusKind R) (c : XCorpus) (n : Option Nat) (it : CorpusIter) :
    (c.withCount n).step K it = ((c.step K it).1.withCount n, (c.step K it).2) := by
  have hr : (c.withCount n).resume it = (c.resume it).withCount n := by
    unfold resume; split <;> rfl
  unfold step
  split
  · rfl
  · dsimp only
    rw [hr]
    simp only [withCount]
    split
    · rfl
    · split
      · rfl
      · rename_i e _
        by_cases hb : (c.resume it).debug = true
        · simp only [hb, if_true]
        · simp only [hb, if_false, Bool.false_eq_true]
          cases K.convert e <;> rfl

theorem call_withCount (K : CorpusKind R) (c : XCorpus) (n : Option Nat) (x : CorpusCall) (hx : x ≠ .len) :
    (c.withCount n).call K x = ((c.call K x).1.withCount n, (c.call K x).2) := by
  cases x with
  | len => exact (hx rfl).elim
  | reset => rfl
  | iter => rfl
  | next =>
    simp only [call]
    have : (c.withCount n).current = c.current := rfl
    rw [this, step_withCount]
  | advance i =>
    simp only [call]
    have : (c.withCount n).iters = c.iters := rfl
    rw [this]
    cases c.iters[i]? with
    | none => rfl
    | some it => dsimp only; rw [step_withCount]; rfl

/-- **C76** `len` disturbs nothing: without its calls a history gives the same. -/
theorem c76_len_disturbs_nothing (K : CorpusKind R) (path : String) (file : XElem) (name : Option String) (debug : Bool) (h : List CorpusCall) :
    ((h.zip ((new path file name debug).run K h).2).filter (fun p => p.1 ≠ .len)).map Prod.snd = ((new path file name debug).run K (h.filter (fun x => x ≠ .len))).2 := by
  have key : ∀ (h : List CorpusCall) (c : XCorpus) (n : Option Nat),
      ((h.zip ((c.withCount n).run K h).2).filter (fun p => p.1 ≠ .len)).map Prod.snd = (c.run K (h.filter (fun x => x ≠ .len))).2 := by
    intro h
    induction h with
    | nil => intro c n; rfl
    | cons x xs ih =>
      intro c n
      by_cases hx : x = .len
      · subst hx
        have : ∃ m, ((c.withCount n).call K .len).1 = c.withCount m := by
          simp only [call, XCorpus.len]
          split
          · exact ⟨n, rfl⟩
          · split
            · exact ⟨n, rfl⟩
            · exact ⟨_, rfl⟩
        obtain ⟨m, hm⟩ := this
        simp only [run, List.zip_cons_cons]
        rw [hm]
        simpa using ih c m
      · have e := call_withCount K c n x hx
        simp only [run, List.zip_cons_cons]
        rw [e]
        simp only [ne_eq, hx, not_false_eq_true, decide_true, List.filter_cons_of_pos, List.map_cons, run, List.cons.injEq, true_and]
        exact ih _ n
  exact key h (new path file name debug) (new path file name debug).count

theorem loop_run {K : CorpusKind R} {file : XElem} {debug : Bool} {name : String} (hu : Unnested K.tag file) (hr : CorpusReadable K debug file) (i o : Nat) :
    ∀ (r : Nat) (h : List CorpusCall) (c : XCorpus) (outs : List (CorpusOut R)) (it : CorpusIter), outs.length = h.length → XCorpus.Inv K name file debug h c outs →
      c.iters[i]? = some it → it.ctx = o → it.ended = false → ∀ n, n = ((bookOf h outs).given o).length → (documentsOf K.tag file).length = n + r →
      (c.run K (List.replicate (r + 1) (.advance i))).2 = ((documentsOf K.tag file).zipIdx.drop n).map (fun p => documentOut K debug o p.2 p.1) ++ [.error .stopIteration] := by
  intro r
  induction r with
  | zero =>
    intro h c outs it hl I hi ho he n hn hlen
    obtain ⟨x, hx⟩ : ∃ x, c.contexts[it.ctx]? = some x := ⟨_, List.getElem?_eq_getElem (I.itsOk it (List.mem_of_getElem? hi))⟩
    obtain ⟨cs, it', hstep, -⟩ := step_spec K c it x hx he
    obtain ⟨-, hg⟩ := I.pos _ x hx
    rw [ho] at hg
    rw [hg, List.length_map, List.length_range] at hn
    subst hn
    simp only [List.replicate, run, call, hi, hstep, I.file_eq, I.debug_eq, requestOut_documents hu]
    rw [List.drop_eq_nil_of_le (by simp; omega), List.getElem?_eq_none (by omega)]
    rfl
  | succ r ih =>
    intro h c outs it hl I hi ho he n hn hlen
    obtain ⟨x, hx⟩ : ∃ x, c.contexts[it.ctx]? = some x := ⟨_, List.getElem?_eq_getElem (I.itsOk it (List.mem_of_getElem? hi))⟩
    obtain ⟨cs, it', hstep, -, -, hctx, hended, -⟩ := step_spec K c it x hx he
    obtain ⟨-, hg⟩ := I.pos _ x hx
    rw [ho] at hg
    have hn' := hn
    rw [hg, List.length_map, List.length_range] at hn'
    subst hn'
    have hlt : x.pos < (documentsOf K.tag file).length := by omega
    have hout : (requestOut K c.file c.debug it.ctx x.pos : CorpusOut R) = documentOut K debug o x.pos (documentsOf K.tag file)[x.pos] := by
      rw [I.file_eq, I.debug_eq, requestOut_documents hu, List.getElem?_eq_getElem hlt, ho]
    have hok : (documentOut K debug o x.pos (documentsOf K.tag file)[x.pos] : CorpusOut R).isError = false ∧ (documentOut K debug o x.pos (documentsOf K.tag file)[x.pos] : CorpusOut R).isStop = false := by
      unfold documentOut
      rcases hr with hr | hr
      · simp [hr, CorpusOut.isError, CorpusOut.isStop]
      · obtain ⟨g, hg⟩ := hr _ (List.getElem_mem hlt)
        rw [hg]
        split <;> exact ⟨rfl, rfl⟩
    have hcall : c.call K (.advance i) = ({ c with contexts := cs, iters := c.iters.set i it' }, documentOut K debug o x.pos (documentsOf K.tag file)[x.pos]) := by
      simp only [call, hi, hstep, hout]
    have I' := inv_step (K := K) (by rw [ends_documents hu]; exact hr.noStop) hl I (.advance i)
    rw [hcall] at I'
    have hb := bookOf_snoc h outs (.advance i) (documentOut K debug o x.pos (documentsOf K.tag file)[x.pos]) hl
    have hgi : (bookOf h outs).iters[i]? = some o := by rw [← I.its]; simp [hi, ho]
    have hlen' : ((bookOf (h ++ [.advance i]) (outs ++ [documentOut K debug o x.pos (documentsOf K.tag file)[x.pos]])).given o).length = x.pos + 1 := by
      rw [hb]
      simp only [CorpusBook.note, hgi, CorpusBook.add, hok.2, Bool.false_eq_true, if_false, if_true, List.length_append, List.length_singleton]
      rw [← hn]
    have := ih (h ++ [.advance i]) _ _ it' (by simp [hl]) I' (by simp [List.getElem?_set, (List.getElem?_eq_some_iff.1 hi).1]) (hctx.trans ho)
      (by rw [hended, hout]; exact hok.1) (x.pos + 1) hlen'.symm (by omega)
    rw [List.replicate_succ, run, hcall]
    dsimp only
    rw [this, List.drop_eq_getElem_cons (i := x.pos) (by simpa using hlt)]
    simp

/-- **C76** A loop over the corpus gives the documents which have not been given from the current opening yet, in the order of the file, and then ends: after any history, if the documents can be read. -/
theorem c76_loop_partial (K : CorpusKind R) (path : String) (file : XElem) (name : Option String) (debug : Bool) (hu : Unnested K.tag file) (hr : CorpusReadable K debug file)
    (h : List CorpusCall) (b : CorpusBook R) (hb : b = bookOf h ((new path file name debug).run K h).2) :
    ((new path file name debug).run K (h ++ .iter :: List.replicate ((documentsOf K.tag file).length - (b.given b.opening).length + 1) (.advance b.iters.length))).2 =
      ((new path file name debug).run K h).2 ++ .iterator b.iters.length ::
        ((documentsOf K.tag file).zipIdx.drop (b.given b.opening).length).map (fun p => documentOut K debug b.opening p.2 p.1) ++ [.error .stopIteration] := by
  have I := inv_run (K := K) (file := file) (debug := debug) path name (by rw [ends_documents hu]; exact hr.noStop) h
  have I' := inv_step (by rw [ends_documents hu]; exact hr.noStop) (run_length K _ h) I .iter
  have hbk := bookOf_snoc h ((new path file name debug).run K h).2 .iter ((((new path file name debug).run K h).1.call K .iter).2) (run_length K _ h)
  have hle : (b.given b.opening).length ≤ (documentsOf K.tag file).length := by
    obtain ⟨k, hk, e⟩ := c76_order_partial K path file name debug hu hr.noStop h b.opening
    rw [hb] at e ⊢
    rw [e]
    simp
  have hlen : ((new path file name debug).run K h).1.iters.length = b.iters.length := by rw [hb, ← I.its, List.length_map]
  rw [run_append]
  simp only [run]
  have := loop_run hu hr b.iters.length b.opening ((documentsOf K.tag file).length - (b.given b.opening).length) (h ++ [.iter]) _ _ { ctx := ((new path file name debug).run K h).1.current }
    (by simp [run_length]) I' (by simp [call, ← hlen]) (by rw [hb, ← I.cur]) rfl (b.given b.opening).length (by rw [hbk]; simp only [CorpusBook.note]; rw [hb]) (by omega)
  rw [this]
  simp [call, hlen]

/-- **C76** After `_reset_corpus_iterator()` nothing has been given from the current opening: the next loop gives all documents again. -/
theorem c76_reset_partial (K : CorpusKind R) (path : String) (file : XElem) (name : Option String) (debug : Bool) (hu : Unnested K.tag file) (hr : CorpusReadable K debug file)
    (h : List CorpusCall) (b : CorpusBook R) (hb : b = bookOf h ((new path file name debug).run K h).2) :
    ((new path file name debug).run K (h ++ .reset :: .iter :: List.replicate ((documentsOf K.tag file).length + 1) (.advance b.iters.length))).2 =
      ((new path file name debug).run K h).2 ++ .none :: .iterator b.iters.length ::
        (documentsOf K.tag file).zipIdx.map (fun p => documentOut K debug (b.opening + 1) p.2 p.1) ++ [.error .stopIteration] := by
  have I := inv_run (K := K) (file := file) (debug := debug) path name (by rw [ends_documents hu]; exact hr.noStop) h
  have hbk := bookOf_snoc h ((new path file name debug).run K h).2 .reset (.none : CorpusOut R) (run_length K _ h)
  have hempty : (bookOf h ((new path file name debug).run K h).2).given (b.opening + 1) = [] := I.out _ (by rw [I.len, hb])
  have e : ((new path file name debug).run K (h ++ [.reset])).2 = ((new path file name debug).run K h).2 ++ [.none] := by rw [run_snoc]; rfl
  have hb' : bookOf (h ++ [.reset]) ((new path file name debug).run K (h ++ [.reset])).2 = { b with opening := b.opening + 1 } := by
    rw [e, hbk, hb]; rfl
  have hl := c76_loop_partial K path file name debug hu hr (h ++ [.reset]) _ rfl
  rw [hb'] at hl
  dsimp only at hl
  rw [hb, ← hb] at hl
  have hg0 : b.given (b.opening + 1) = [] := by rw [← hempty, hb]
  rw [hg0] at hl
  simp only [List.length_nil, Nat.sub_zero, List.drop_zero, List.append_assoc, List.singleton_append, List.cons_append, List.nil_append] at hl
  rw [hl, e]
  simp

/-- **C76** A loop after a loop over all documents gives nothing, until the corpus is reset. -/
theorem c76_second_loop_partial (K : CorpusKind R) (path : String) (file : XElem) (name : Option String) (debug : Bool) (hu : Unnested K.tag file) (hr : CorpusReadable K debug file) :
    ((new path file name debug).run K (.iter :: List.replicate ((documentsOf K.tag file).length + 1) (.advance 0) ++ [.iter, .advance 1])).2 =
      .iterator 0 :: (documentsOf K.tag file).zipIdx.map (fun p => documentOut K debug 0 p.2 p.1) ++ [.error .stopIteration, .iterator 1, .error .stopIteration] := by
  have h1 := c76_loop_partial K path file name debug hu hr [] _ rfl
  have hr0 : ((new path file name debug).run K []).2 = [] := rfl
  have hb0 : bookOf [] ([] : List (CorpusOut R)) = {} := rfl
  rw [hr0, hb0] at h1
  simp only [List.length_nil, Nat.sub_zero, List.nil_append, List.drop_zero] at h1
  set h : List CorpusCall := .iter :: List.replicate ((documentsOf K.tag file).length + 1) (.advance 0) with hh
  have hbook : ∀ (ys : List (CorpusOut R)) (b : CorpusBook R), b.iters = [0] → b.opening = 0 → (∀ y ∈ ys, y.isStop = false) →
      let b' := ((List.replicate (ys.length + 1) (CorpusCall.advance 0)).zip (ys ++ [.error .stopIteration])).foldl CorpusBook.note b
      b'.iters = [0] ∧ b'.opening = 0 ∧ b'.given 0 = b.given 0 ++ ys := by
    intro ys
    induction ys with
    | nil => intro b h1 h2 _; simp [CorpusBook.note, h1, h2, CorpusBook.add, CorpusOut.isStop]
    | cons y ys ih =>
      intro b h1 h2 h3
      have hn : b.note (.advance 0, y) = { b with given := fun p => if p = 0 then b.given p ++ [y] else b.given p } := by
        simp [CorpusBook.note, h1, CorpusBook.add, h3 y (by simp)]
      have := ih (b.note (.advance 0, y)) (by rw [hn]; exact h1) (by rw [hn]; exact h2) (fun z hz => h3 z (by simp [hz]))
      simp only [List.length_cons, List.replicate_succ (n := ys.length + 1), List.cons_append, List.zip_cons_cons, List.foldl_cons]
      rw [hn] at this ⊢
      simpa using this
  have hb := hbook ((documentsOf K.tag file).zipIdx.map (fun p => documentOut K debug 0 p.2 p.1)) { iters := [0] } rfl rfl (by
    intro y hy
    obtain ⟨p, hp, rfl⟩ := List.mem_map.1 hy
    unfold documentOut
    rcases hr with hr | hr
    · simp [hr, CorpusOut.isStop]
    · obtain ⟨g, hg⟩ := hr p.1 (by have := (List.mem_zipIdx' hp).2; rw [this]; exact List.getElem_mem _)
      rw [hg]; split <;> rfl)
  simp only [List.length_map, List.length_zipIdx, List.nil_append] at hb
  have hbk : bookOf h ((new path file name debug).run K h).2 = ((List.replicate ((documentsOf K.tag file).length + 1) (CorpusCall.advance 0)).zip ((documentsOf K.tag file).zipIdx.map (fun p => documentOut K debug 0 p.2 p.1) ++ [.error .stopIteration])).foldl CorpusBook.note { iters := [0] } := by
    rw [h1, hh]
    simp [bookOf, CorpusBook.note]
  obtain ⟨b1, b2, b3⟩ := hb
  have h2 := c76_loop_partial K path file name debug hu hr h _ rfl
  rw [hbk, b2, b3, b1, h1] at h2
  rw [List.drop_eq_nil_of_le (by simp)] at h2
  simpa using h2

theorem element_index {K : CorpusKind R} (path : String) (file : XElem) (name : Option String) (h : List CorpusCall) :
    ∀ n o i : Nat, ((new path file name true).run K h).2[n]? = some (.item (.element o i)) → i < (file.ends K.tag).length := by
  induction h using List.reverseRecOn with
  | nil => intro n o i hn; simp [run] at hn
  | append_singleton xs x ih =>
    intro n o i hn
    have I := inv_run (K := K) (file := file) (debug := true) path name (.inl rfl) xs
    rw [run_snoc, snoc_get] at hn
    rcases hn with hn | ⟨-, hn⟩
    · exact ih n o i hn
    · have key : ∀ (it : CorpusIter), it.ctx < ((new path file name true).run K xs).1.contexts.length → (((new path file name true).run K xs).1.step K it).2.2 = .item (.element o i) → i < (file.ends K.tag).length := by
        intro it hit hout
        cases he : it.ended with
        | true => unfold step at hout; rw [he] at hout; cases hout
        | false =>
          obtain ⟨cs, it', hstep, -⟩ := step_spec K _ it _ (List.getElem?_eq_getElem hit) he
          rw [hstep, I.file_eq, I.debug_eq] at hout
          dsimp only at hout
          have hi := (requestOut_element hout).2.1
          unfold requestOut at hout
          rw [hi]
          by_contra hc
          rw [List.getElem?_eq_none (Nat.not_lt.1 hc)] at hout
          cases hout
      cases x with
      | reset => cases hn
      | len => cases hn
      | iter => cases hn
      | next => exact key { ctx := _ } (by rw [I.len, I.cur]; exact Nat.lt_succ_self _) hn
      | advance j =>
        simp only [call] at hn
        cases hj : ((new path file name true).run K xs).1.iters[j]? with
        | none => rw [hj] at hn; cases hn
        | some it => rw [hj] at hn; exact key it (I.itsOk it (List.mem_of_getElem? hj)) hn

/-- **C76** With `debug`: an element which was handed out is as it is in the file, until its iterator is asked for the next one; then it is empty.  (An element given by `next()` stays as it is.) -/
theorem c76_element_partial (K : CorpusKind R) (path : String) (file : XElem) (name : Option String) (hu : Unnested K.tag file)
    (h : List CorpusCall) (n o i : Nat) (hn : ((new path file name true).run K h).2[n]? = some (.item (.element o i))) (passed : Prop) [Decidable passed] (hp : passed ↔ PassedBy h ((new path file name true).run K h).2 o i) :
    ∃ d, (documentsOf K.tag file)[i]? = some d ∧
      ((new path file name true).run K h).1.look K o i = some (if passed then .mk d.tag none [] [] else d) := by
  have I := inv_run (K := K) (file := file) (debug := true) path name (.inl rfl) h
  have E := invE_run (K := K) path file name true h
  have ho := E.outEl n o i hn
  obtain ⟨x, hx⟩ : ∃ x, ((new path file name true).run K h).1.contexts[o]? = some x := ⟨_, List.getElem?_eq_getElem ho⟩
  have hi := element_index path file name h n o i hn
  have hd : ((new path file name true).run K h).1.file.ends K.tag = documentsOf K.tag file := by rw [I.file_eq, ends_documents hu]
  rw [ends_documents hu] at hi
  refine ⟨_, List.getElem?_eq_getElem hi, ?_⟩
  unfold look
  rw [hx, hd, List.getElem?_eq_getElem hi]
  dsimp only
  have := E.cleared I.debug_eq o x i hx
  by_cases hpp : passed
  · rw [if_pos hpp, if_pos (this.2 (hp.1 hpp))]
  · rw [if_neg hpp, if_neg (fun hh => hpp (hp.2 (this.1 hh)))]

/-! ### the two readers -/

theorem exportxml_noStop (e : XElem) : exportXmlKind.convert e ≠ .error .stopIteration := by
  unfold exportXmlKind
  dsimp only
  split
  · exact fun h => by cases h
  · exact DG.noStop_expRead _ _ _ _ _

theorem urml_noStop (view : XElem → UrmlDoc) (tokenize precedence : Bool) (e : XElem) : (urmlKind view tokenize precedence).convert e ≠ .error .stopIteration := by
  show DG.urmlRead none "urml" tokenize precedence (view e) ≠ _
  exact DG.noStop_urmlRead _ _ _ _ _

/-- **C76** Whatever the documents of the file are – correct or not –: an ExportXML corpus gives them from each opening of the file in their order, each one once, and `next()` the first one not given yet (or the exception of its conversion),
and StopIteration only if there is none left. -/
theorem c76_exportxml_order_partial (path : String) (file : XElem) (name : Option String) (debug : Bool) (hu : Unnested "text" file) (h : List CorpusCall) :
    (∀ o, ∃ k ≤ (documentsOf "text" file).length,
      (bookOf h ((new path file name debug).run exportXmlKind h).2).given o = ((documentsOf "text" file).take k).zipIdx.map (fun p => documentOut exportXmlKind debug o p.2 p.1)) ∧
    ∃ y, ((new path file name debug).run exportXmlKind (h ++ [.next])).2 = ((new path file name debug).run exportXmlKind h).2 ++ [y] ∧
      ∀ b, b = bookOf h ((new path file name debug).run exportXmlKind h).2 → y = match (documentsOf "text" file)[(b.given b.opening).length]? with
        | none => .error .stopIteration
        | some d => documentOut exportXmlKind debug b.opening (b.given b.opening).length d :=
  ⟨fun o => c76_order_partial exportXmlKind path file name debug hu (.inr fun d _ => exportxml_noStop d) h o,
    c76_next_partial exportXmlKind path file name debug hu (.inr fun d _ => exportxml_noStop d) h⟩

/-- **C76** The same for a URML corpus. -/
theorem c76_urml_order_partial (view : XElem → UrmlDoc) (tokenize precedence : Bool) (path : String) (file : XElem) (name : Option String) (debug : Bool) (hu : Unnested "document" file) (h : List CorpusCall) :
    (∀ o, ∃ k ≤ (documentsOf "document" file).length,
      (bookOf h ((new path file name debug).run (urmlKind view tokenize precedence) h).2).given o = ((documentsOf "document" file).take k).zipIdx.map (fun p => documentOut (urmlKind view tokenize precedence) debug o p.2 p.1)) ∧
    ∃ y, ((new path file name debug).run (urmlKind view tokenize precedence) (h ++ [.next])).2 = ((new path file name debug).run (urmlKind view tokenize precedence) h).2 ++ [y] ∧
      ∀ b, b = bookOf h ((new path file name debug).run (urmlKind view tokenize precedence) h).2 → y = match (documentsOf "document" file)[(b.given b.opening).length]? with
        | none => .error .stopIteration
        | some d => documentOut (urmlKind view tokenize precedence) debug b.opening (b.given b.opening).length d :=
  ⟨fun o => c76_order_partial (urmlKind view tokenize precedence) path file name debug hu (.inr fun d _ => urml_noStop view tokenize precedence d) h o,
    c76_next_partial (urmlKind view tokenize precedence) path file name debug hu (.inr fun d _ => urml_noStop view tokenize precedence d) h⟩

/-- **C76** For files of the format: every document of an ExportXML corpus which meets the conditions of C63 can be read, so the theorems above hold. -/
theorem c76_exportxml {file : XElem} (h : ∀ d ∈ documentsOf "text" file, ExpOk d) (debug : Bool) : CorpusReadable exportXmlKind debug file := by
  refine .inr (fun d hd => ?_)
  have hok := h d hd
  obtain ⟨i, hi⟩ : ∃ i, d.id = some i := Option.ne_none_iff_exists'.1 (by have := hok.2; simp_all)
  obtain ⟨g, hg, -⟩ := DG.c63_content hok (some i) (ns := "exportxml") (precedence := false) (o := {}) (fun hh => by cases hh)
  refine ⟨g, ?_⟩
  simp only [exportXmlKind, hi]
  exact hg

/-- **C76** (ExportXML) `next()` gives the document graph of the first `<text>` element which has not been given yet, as `ExportXMLDocumentGraph` reads it, with its ID as name. -/
theorem c76_exportxml_next_partial (path : String) (file : XElem) (name : Option String) (hu : Unnested "text" file)
    (hs : ∀ d ∈ documentsOf "text" file, ∃ i g, d.id = some i ∧ DG.expRead (some i) "exportxml" false {} d = .ok g) (h : List CorpusCall) :
    ∀ b, b = bookOf h ((new path file name false).run exportXmlKind h).2 →
      ∃ y, ((new path file name false).run exportXmlKind (h ++ [.next])).2 = ((new path file name false).run exportXmlKind h).2 ++ [y] ∧
        match (documentsOf "text" file)[(b.given b.opening).length]? with
        | none => y = .error .stopIteration
        | some d => ∃ i g, d.id = some i ∧ DG.expRead (some i) "exportxml" false {} d = .ok g ∧ y = .item (.graph g) := by
  intro b hb
  have hr : CorpusReadable exportXmlKind false file := .inr (fun d hd => by
    obtain ⟨i, g, h1, h2⟩ := hs d hd
    exact ⟨g, by simp only [exportXmlKind, h1]; exact h2⟩)
  obtain ⟨y, h1, h2⟩ := c76_next_partial exportXmlKind path file name false hu hr.noStop h
  refine ⟨y, h1, ?_⟩
  have h3 := h2 b hb
  have e : exportXmlKind.tag = "text" := rfl
  rw [e] at h3
  cases hd : (documentsOf "text" file)[(b.given b.opening).length]? with
  | none => rw [hd] at h3; exact h3
  | some d =>
    rw [hd] at h3
    obtain ⟨i, g, h4, h5⟩ := hs d (List.mem_of_getElem? hd)
    refine ⟨i, g, h4, h5, ?_⟩
    rw [h3]
    simp only [documentOut, exportXmlKind, h4, h5, Bool.false_eq_true, if_false]

/-- **C76** (URML) `next()` gives the document graph of the first `<document>` element which has not been given yet, as `URMLDocumentGraph` reads it with the options of the corpus; `len` is the number of these elements. -/
theorem c76_urml_next_partial (view : XElem → UrmlDoc) (tokenize precedence : Bool) (path : String) (file : XElem) (name : Option String) (hu : Unnested "document" file)
    (hs : ∀ d ∈ documentsOf "document" file, ∃ r, DG.urmlRead none "urml" tokenize precedence (view d) = .ok r) (h : List CorpusCall) :
    ∀ b, b = bookOf h ((new path file name false).run (urmlKind view tokenize precedence) h).2 →
      ∃ y, ((new path file name false).run (urmlKind view tokenize precedence) (h ++ [.next, .len])).2 =
          ((new path file name false).run (urmlKind view tokenize precedence) h).2 ++ [y, .number (documentsOf "document" file).length] ∧
        match (documentsOf "document" file)[(b.given b.opening).length]? with
        | none => y = .error .stopIteration
        | some d => ∃ r, DG.urmlRead none "urml" tokenize precedence (view d) = .ok r ∧ y = .item (.graph r) := by
  intro b hb
  have hr : CorpusReadable (urmlKind view tokenize precedence) false file := .inr hs
  obtain ⟨y, h1, h2⟩ := c76_next_partial (urmlKind view tokenize precedence) path file name false hu hr.noStop h
  have hl := c76_len_partial (urmlKind view tokenize precedence) path file name false rfl (h ++ [.next] ++ [.len]) (h.length + 1) (by simp)
  refine ⟨y, ?_, ?_⟩
  · have e : h ++ [.next, .len] = h ++ [.next] ++ [.len] := by simp
    rw [e]
    rw [run_snoc, h1] at hl ⊢
    have hlen := run_length (urmlKind view tokenize precedence) (new path file name false) h
    rw [List.getElem?_append_right (by simp [hlen])] at hl
    simp only [List.length_append, hlen, List.length_singleton, Nat.sub_self, List.getElem?_cons_zero, Option.some.injEq] at hl
    rw [hl, List.append_assoc]
    rfl
  · have h3 := h2 b hb
    have e : (urmlKind view tokenize precedence).tag = "document" := rfl
    rw [e] at h3
    cases hd : (documentsOf "document" file)[(b.given b.opening).length]? with
    | none => rw [hd] at h3; exact h3
    | some d =>
      rw [hd] at h3
      obtain ⟨r, h5⟩ := hs d (List.mem_of_getElem? hd)
      refine ⟨r, h5, ?_⟩
      rw [h3]
      simp only [documentOut, urmlKind, h5, Bool.false_eq_true, if_false]

/-- two texts -/
def c76File : XElem :=
  .mk "exml-doc" none [] [.mk "exml-header" none [] [],
    .mk "body" none [] [
      .mk "text" (some "t1") [] [.mk "sentence" (some "s1") [] [.mk "word" (some "s1_1") [("form", "Ann")] [], .mk "word" (some "s1_2") [("form", "sleeps")] []]],
      .mk "text" (some "t2") [] [.mk "sentence" (some "s2") [] [.mk "word" (some "s2_1") [("form", "end")] []]]]]

def unnestedB (tag : String) (file : XElem) : Bool := (documentsOf tag file).all (fun d => (XElem.allL d.children).all (fun e => decide (e.tag ≠ tag)))

theorem unnested_of {tag : String} {file : XElem} (h : unnestedB tag file = true) : Unnested tag file := by
  intro d hd e he
  have h1 := List.all_eq_true.1 (List.all_eq_true.1 h d hd) e he
  simpa using h1

example : Unnested "text" (.mk "corpus" none [] [.mk "text" none [] [], .mk "text" (some "t") [] [.mk "unknown" none [] []]]) := unnested_of (by decide +kernel)

theorem c76File_unnested : Unnested "text" c76File := unnested_of (by decide +kernel)

theorem c76File_ok : ∀ d ∈ documentsOf "text" c76File, ExpOk d := by
  intro d hd
  have h : documentsOf "text" c76File = [
      .mk "text" (some "t1") [] [.mk "sentence" (some "s1") [] [.mk "word" (some "s1_1") [("form", "Ann")] [], .mk "word" (some "s1_2") [("form", "sleeps")] []]],
      .mk "text" (some "t2") [] [.mk "sentence" (some "s2") [] [.mk "word" (some "s2_1") [("form", "end")] []]]] := rfl
  rw [h] at hd
  simp only [List.mem_cons, List.not_mem_nil, or_false] at hd
  rcases hd with rfl | rfl
  · exact DG.expOk_of rfl (by decide) (by decide +kernel)
  · exact DG.expOk_of rfl (by decide) (by decide +kernel)

/-- what is seen of an outcome: the name and the number of tokens of a document graph -/
def CorpusOut.short : CorpusOut DG → String × Option Nat
  | .none => ("", Option.none)
  | .number n => ("len", some n)
  | .iterator i => ("iter", some i)
  | .item (.graph g) => (g.name, some g.tokens.length)
  | .item (.element _ i) => ("element", some i)
  | .error .stopIteration => ("stop", Option.none)
  | .error _ => ("error", Option.none)

/-- all conditions of the theorems are met -/
example : CorpusReadable exportXmlKind false c76File ∧ Unnested exportXmlKind.tag c76File ∧ (documentsOf exportXmlKind.tag c76File).length = 2 ∧
    exportXmlKind.fixed (new "dir/c.xml" c76File none false).name = none :=
  ⟨c76_exportxml c76File_ok false, c76File_unnested, by decide +kernel, by decide +kernel⟩

example : ∀ d ∈ documentsOf "text" c76File, ∃ i g, d.id = some i ∧ DG.expRead (some i) "exportxml" false {} d = .ok g := by
  intro d hd
  have hok := c76File_ok d hd
  obtain ⟨i, hi⟩ : ∃ i, d.id = some i := Option.ne_none_iff_exists'.1 (by have := hok.2; simp_all)
  obtain ⟨g, hg, -⟩ := DG.c63_content hok (some i) (ns := "exportxml") (precedence := false) (o := {}) (fun hh => by cases hh)
  exact ⟨i, g, hi, hg⟩

/-- a URML corpus of two documents with one segment each (here the view takes the ID only) -/
def c76Urml : XElem := .mk "urml" none [] [.mk "document" (some "d1") [] [], .mk "document" (some "d2") [] []]

def c76View (e : XElem) : UrmlDoc :=
  { id := e.id.getD "", segments := [⟨"1", some "a b".toList, []⟩, ⟨"2", some "c".toList, []⟩], relations := [⟨"r", false, "cause".toList, [(.nucleus, "1"), (.satellite, "2")]⟩],
    roles := [(.nucleus, "1"), (.satellite, "2")] }

example : Unnested "document" c76Urml ∧ (∀ d ∈ documentsOf "document" c76Urml, ∃ r, DG.urmlRead none "urml" true true (c76View d) = .ok r) ∧
    (((new "c.urml" c76Urml none false).run (urmlKind c76View true true) [.next, .len, .next, .next]).2.map (fun y => match y with
      | .item (.graph r) => some (r.1.name, r.1.tokens.length)
      | _ => Option.none)) = [some ("d1", 3), Option.none, some ("d2", 3), Option.none] := by
  refine ⟨unnested_of (by decide +kernel), ?_, by decide +kernel⟩
  have : ∀ d ∈ documentsOf "document" c76Urml, (DG.urmlRead none "urml" true true (c76View d)).isOk = true := by decide +kernel
  intro d hd
  have h := this d hd
  cases hr : DG.urmlRead none "urml" true true (c76View d) with
  | ok r => exact ⟨r, rfl⟩
  | error e => rw [hr] at h; cases h

/-- a history: two iterators and `next` take from the same opening, also after `len`; after a reset the old iterator goes on with the old opening -/
example : ((new "dir/c.xml" c76File none false).run exportXmlKind [.iter, .len, .advance 0, .iter, .reset, .next, .advance 1, .len, .advance 0, .advance 1, .next, .next]).2.map CorpusOut.short =
    [("iter", some 0), ("len", some 2), ("t1", some 2), ("iter", some 1), ("", none), ("t1", some 2), ("t2", some 1), ("len", some 2), ("stop", none), ("stop", none), ("t2", some 1), ("stop", none)] := by decide +kernel

/-- an element given by `next()` stays as it is, an element given by an iterator is emptied -/
example : ((new "c.xml" c76File none true).run exportXmlKind [.next, .iter, .advance 0]).2.map CorpusOut.short = [("element", some 0), ("iter", some 0), ("element", some 1)] ∧
    ¬ PassedBy [.next, .iter, .advance 0] ((new "c.xml" c76File none true).run exportXmlKind [.next, .iter, .advance 0]).2 0 0 := by
  refine ⟨by decide +kernel, ?_⟩
  rintro ⟨j, n, m, hnm, h1, h2, h3⟩
  match n, m with
  | 0, _ => cases h1
  | 1, _ => cases h1
  | 2, m =>
    have := (List.getElem?_eq_some_iff.1 h3).1
    simp at this; omega
  | n + 3, _ => cases h1

/-! ### what fails -/

/-- **C76 (fails)** The name of the Tüba-D/Z file decides about the length, whatever is in the file. -/
theorem c76_fails_len : ((new "/x/tuebadz-8.0-mit-NE+Anaphern+Diskurs.exml.xml" c76File none false).run exportXmlKind [.len, .next, .next, .next]).2.map CorpusOut.short =
    [("len", some 3258), ("t1", some 2), ("t2", some 1), ("stop", none)] := by decide +kernel

/-- **C76 (fails)** A list of all elements (`debug`) is a list of empty elements. -/
theorem c76_fails_list :
    let r := (new "c.xml" c76File none true).run exportXmlKind [.iter, .len, .advance 0, .advance 0, .advance 0]
    r.2.map CorpusOut.short = [("iter", some 0), ("len", some 2), ("element", some 0), ("element", some 1), ("stop", none)] ∧
      ((r.1.look exportXmlKind 0 0).map (fun e => (e.id, e.children.length)), (r.1.look exportXmlKind 0 1).map (fun e => (e.id, e.children.length))) = (some (none, 0), some (none, 0)) := by
  decide +kernel

/-- a text whose word has no form, and another text -/
def c76Broken : XElem :=
  .mk "body" none [] [.mk "text" (some "t1") [] [.mk "sentence" (some "s1") [] [.mk "word" (some "s1_1") [] []]],
    .mk "text" (some "t2") [] [.mk "sentence" (some "s2") [] [.mk "word" (some "s2_1") [("form", "end")] []]]]

/-- **C76 (fails)** A document which cannot be read ends the loop; a new loop goes on behind it. -/
theorem c76_fails_broken : ((new "c.xml" c76Broken none false).run exportXmlKind [.iter, .advance 0, .advance 0, .iter, .advance 1, .advance 1]).2.map CorpusOut.short =
    [("iter", some 0), ("error", none), ("stop", none), ("iter", some 1), ("t2", some 1), ("stop", none)] := by decide +kernel

end Dg
