import Verif.Lemmas.MergeAll
import Verif.Lemmas.Corpora
import Verif.Lemmas.Text

/-! C73: documents of the Potsdam Commentary Corpus. -/

namespace Dg
open Dict

/-! ### merging any number of layers -/

/-- **C73** (merging layers), partial.  Any number of layers of the same text, with different IDs, can be merged into a document.  The result has the tokens and the text of the document, everything of the document, and
every layer completely; a layer may overwrite attributes of nodes it shares with earlier ones; there is nothing else, in particular the number of edges is the sum of the numbers of edges; the metadata of all layers are collected.
Missing: layers of the edges at the roots and shared token IDs (as C24), layers that use the token attribute of the document. -/
theorem c73_merge_layers_partial {strs : List String} (hne : strs ≠ []) (layers : List (DG × DG.Sched)) {g : DG} (hd : g.Document strs)
    (hl : ∀ p ∈ layers, DG.Layer strs p.1 ∧ DG.Apart g.tokens g.root g.ns p.1 ∧ ¬ g.HasNode p.1.root ∧ p.2.Valid (p.1.tokens.zip g.tokens))
    (hp : layers.Pairwise (fun a b => ¬ a.1.HasNode b.1.root ∧ ¬ b.1.HasNode a.1.root)) :
    ∃ g', g.mergeAll layers = (g', none) ∧ g'.Document strs ∧ g'.tokens = g.tokens ∧ g'.root = g.root ∧ g'.ns = g.ns ∧
      (∀ before p later, layers = before ++ p :: later → DG.LayerIn (later.map Prod.fst) p.1 g') ∧ DG.KeptIn (layers.map Prod.fst) g g' ∧ DG.OnlyFrom (layers.map Prod.fst) g g' ∧
      DG.metadataOf g' = (layers.map (fun p => DG.metadataOf p.1)).foldl upd (DG.metadataOf g) :=
  DG.mergeAll_spec hne layers hd hl hp

/-! ### the files of a document -/

/-- **C73** (patterns) file name patterns without brackets mean what they should -/
theorem c73_patterns (p s : List Char) : fnmatch p s = true ↔ FitsGlob p s := by
  induction p generalizing s with
  | nil =>
    cases s with
    | nil => exact ⟨fun _ => .nil, fun _ => rfl⟩
    | cons c s => exact ⟨fun h => by simp [fnmatch] at h, fun h => nomatch h⟩
  | cons c p ih =>
    by_cases hc : c = '*'
    · subst hc
      rw [fnmatch_star_iff]
      constructor
      · rintro ⟨t, h1, h⟩; exact .star h1 ((ih t).1 h)
      · intro h
        cases h with
        | star h1 h => exact ⟨_, h1, (ih _).2 h⟩
        | same h1 h => exact absurd rfl h1
    · cases s with
      | nil => exact ⟨fun h => by simp [fnmatch, hc] at h, fun h => by cases h; exact absurd rfl hc⟩
      | cons x s =>
        simp only [fnmatch, if_neg hc, List.head?_cons, Option.any_some, List.tail_cons, Bool.and_eq_true, Bool.or_eq_true, decide_eq_true_eq, ih]
        constructor
        · rintro ⟨rfl | rfl, h⟩
          · exact .any x h
          · exact .same hc h
        · intro h
          cases h with
          | star _ _ => exact absurd rfl hc
          | any _ h => exact ⟨.inl rfl, h⟩
          | same _ h => exact ⟨.inr rfl, h⟩

/-- **C73** (files) the pattern for a document selects exactly its files, if files are called `<ID>.<extension>` and their directories do not contain the ID followed by a dot -/
theorem c73_files {d e dir f : List Char} (hd : IsDocId d) (he : IsDocId e) (hf : FileOf dir e f) (hdir : ¬ d ++ ['.'] <:+: dir) : fnmatch (docPattern d) f = true ↔ d = e := by
  obtain ⟨ext, h1, h2, rfl⟩ := hf
  rw [docPattern_iff hd.plain.1 hd.plain.2.1]
  constructor
  · intro h
    rcases infix_split (by simp) (by simp [hd.plain.2.2.2.1]) h with h | h
    · exact absurd h hdir
    · exact docId_infix hd he h1 h
  · rintro rfl
    exact ⟨dir ++ ['/'], ext, by simp⟩

theorem docFiles_mem (c : Pcc) {order : List PccLayer} (ho : ∀ l, l ∈ order) (d : List Char) (l : PccLayer) (f : List Char) :
    (l, f) ∈ c.docFiles order d ↔ f ∈ c.layers l ∧ fnmatch (docPattern d) f = true := by
  unfold Pcc.docFiles
  simp only [List.mem_flatMap, List.mem_map, List.mem_filter, Prod.mk.injEq]
  constructor
  · rintro ⟨l', -, f', h, rfl, rfl⟩; exact h
  · intro h; exact ⟨l, ho l, f, h, rfl, rfl⟩

/-- **C73** (files) whatever the order of the dict of layers, the files of a document are all files of the corpus with its ID, in all layers -/
theorem c73_document_files (c : Pcc) {order : List PccLayer} (ho : ∀ l, l ∈ order) {d : List Char} (hd : IsDocId d)
    (hc : ∀ l, ∀ f ∈ c.layers l, ∃ e dir, IsDocId e ∧ FileOf dir e f ∧ ¬ d ++ ['.'] <:+: dir) (l : PccLayer) (f : List Char) :
    (l, f) ∈ c.docFiles order d ↔ f ∈ c.layers l ∧ ∃ dir, FileOf dir d f := by
  rw [docFiles_mem c ho]
  refine and_congr_right (fun hf => ?_)
  obtain ⟨e, dir, h1, h2, h3⟩ := hc l f hf
  rw [c73_files hd h1 h2 h3]
  constructor
  · rintro rfl; exact ⟨dir, h2⟩
  · rintro ⟨dir', ext', k1, k2, k3⟩
    obtain ⟨ext, m1, m2, m3⟩ := h2
    have hb : basename f = d ++ '.' :: ext' := by rw [k3]; exact basename_file _ (by simp [hd.plain.2.2.2.1, k2])
    have hb' : basename f = e ++ '.' :: ext := by rw [m3]; exact basename_file _ (by simp [h1.plain.2.2.2.1, m2])
    have e1 := docIdOf_file hd k1
    rw [← hb, hb', docIdOf_file h1 m1] at e1
    exact (Option.some.inj e1).symm

/-- **C73** (files) get_files_by_document_id: the same files -/
theorem c73_files_by_id (c : Pcc) {order : List PccLayer} (ho : ∀ l, l ∈ order) (d f : List Char) :
    f ∈ c.filesByDocumentId order d ↔ ∃ l, (l, f) ∈ c.docFiles order d := by
  simp only [docFiles_mem c ho]
  unfold Pcc.filesByDocumentId
  simp only [List.mem_filter, List.mem_flatMap]
  constructor
  · rintro ⟨⟨l, -, h⟩, h'⟩; exact ⟨l, h, h'⟩
  · rintro ⟨l, h, h'⟩; exact ⟨⟨l, ho l, h⟩, h'⟩

/-! ### get_document -/

theorem readAll_ok {read : PccLayer → List Char → Except PyErr DG} {graph : PccLayer × List Char → DG} : ∀ {fs : List (PccLayer × List Char)}, (∀ p ∈ fs, read p.1 p.2 = .ok (graph p)) →
    readAll read fs = .ok (fs.map graph) := by
  intro fs h
  induction fs with
  | nil => rfl
  | cons p fs ih =>
    have h1 := h p List.mem_cons_self
    obtain ⟨l, f⟩ := p
    simp only [readAll, bind, Except.bind, h1, ih (fun q hq => h q (List.mem_cons_of_mem _ hq)), List.map_cons]

/-- **C73** (get_document), partial: if the files of a document can be read and are layers of the same text with different IDs, then the document has all of them (as in `c73_merge_layers_partial`, which also says what is missing) -/
theorem c73_get_document_partial (c : Pcc) (order : List PccLayer) {read : PccLayer → List Char → Except PyErr DG} {scheds : Nat → DG.Sched} {d : List Char}
    {first : PccLayer × List Char} {rest : List (PccLayer × List Char)} (hfiles : c.docFiles order d = first :: rest)
    {graph : PccLayer × List Char → DG} (hread : ∀ p ∈ c.docFiles order d, read p.1 p.2 = .ok (graph p)) {strs : List String} (hne : strs ≠ []) (hd : (graph first).Document strs)
    (hl : ∀ p ∈ rest, DG.Layer strs (graph p) ∧ DG.Apart (graph first).tokens (graph first).root (graph first).ns (graph p) ∧ ¬ (graph first).HasNode (graph p).root)
    (hp : rest.Pairwise (fun a b => ¬ (graph a).HasNode (graph b).root ∧ ¬ (graph b).HasNode (graph a).root))
    (hs : ∀ i p, rest[i]? = some p → (scheds i).Valid ((graph p).tokens.zip (graph first).tokens)) :
    ∃ g', c.getDocument order read scheds d = .ok g' ∧ g'.Document strs ∧ g'.tokens = (graph first).tokens ∧
      (∀ before p later, rest = before ++ p :: later → DG.LayerIn (later.map graph) (graph p) g') ∧ DG.KeptIn (rest.map graph) (graph first) g' ∧ DG.OnlyFrom (rest.map graph) (graph first) g' := by
  have hidx : ∀ (l : List DG) (k : Nat), (l.zipIdx k).map Prod.fst = l := by
    intro l k
    exact List.zipIdx_map_fst k l
  have hfst : (((rest.map graph).zipIdx).map (fun p => (p.1, scheds p.2))).map Prod.fst = rest.map graph := by
    rw [List.map_map]
    exact hidx _ 0
  obtain ⟨g', h1, h2, h3, -, -, h6, h7, h8, -⟩ := c73_merge_layers_partial hne (((rest.map graph).zipIdx).map (fun p => (p.1, scheds p.2))) hd
    (by
      intro q hq
      obtain ⟨⟨o, i⟩, hm, rfl⟩ := List.mem_map.1 hq
      have hi := List.mem_zipIdx_iff_getElem?.1 hm
      simp only [List.getElem?_map, Option.map_eq_some_iff] at hi
      obtain ⟨p, hp1, rfl⟩ := hi
      obtain ⟨k1, k2, k3⟩ := hl p (List.mem_of_getElem? hp1)
      exact ⟨k1, k2, k3, hs i p hp1⟩)
    (by
      have : (rest.map graph).Pairwise (fun a b => ¬ a.HasNode b.root ∧ ¬ b.HasNode a.root) := List.pairwise_map.2 hp
      rw [← hfst, List.pairwise_map] at this
      exact this)
  refine ⟨g', ?_, h2, h3, ?_, by rw [hfst] at h7; exact h7, by rw [hfst] at h8; exact h8⟩
  · unfold Pcc.getDocument
    have hr := readAll_ok hread
    rw [hfiles, List.map_cons] at hr
    rw [hfiles]
    simp only [bind, Except.bind, hr, h1]
  · intro before p later he
    have hlen : ∀ (a b : List DG) (k : Nat), (a ++ b).zipIdx k = a.zipIdx k ++ b.zipIdx (k + a.length) := fun a b k => List.zipIdx_append
    have := h6 (((before.map graph).zipIdx).map (fun p => (p.1, scheds p.2))) (graph p, scheds before.length)
      (((later.map graph).zipIdx (before.length + 1)).map (fun p => (p.1, scheds p.2))) (by
        rw [he, List.map_append, List.map_cons, hlen, List.zipIdx_cons, List.map_append, List.map_cons]
        simp)
    have e2 : (((later.map graph).zipIdx (before.length + 1)).map (fun p => (p.1, scheds p.2))).map Prod.fst = later.map graph := by
      rw [List.map_map]; exact hidx _ _
    rw [e2] at this
    exact this

/-- **C73** (get_document) TypeError if there are no files; an error of a reader is passed on -/
theorem c73_no_document (c : Pcc) (order : List PccLayer) (read : PccLayer → List Char → Except PyErr DG) (scheds : Nat → DG.Sched) (d : List Char) :
    (c.docFiles order d = [] → c.getDocument order read scheds d = .error .type) ∧
    (∀ before p later e, c.docFiles order d = before ++ p :: later → (∀ q ∈ before, (read q.1 q.2).isOk = true) → read p.1 p.2 = .error e → c.getDocument order read scheds d = .error e) := by
  constructor
  · intro h
    unfold Pcc.getDocument
    rw [h]; rfl
  · intro before p later e h hb hp
    have : ∀ bs : List (PccLayer × List Char), (∀ q ∈ bs, (read q.1 q.2).isOk = true) → readAll read (bs ++ p :: later) = .error e := by
      intro bs hb
      induction bs with
      | nil => simp only [List.nil_append, readAll, bind, Except.bind, hp]
      | cons q bs ih =>
        have hq := hb q List.mem_cons_self
        cases hr : read q.1 q.2 with
        | error x => rw [hr] at hq; cases hq
        | ok g =>
          simp only [List.cons_append, readAll, bind, Except.bind, hr, ih (fun x hx => hb x (List.mem_cons_of_mem _ hx))]
    unfold Pcc.getDocument
    simp only [h, this before hb, bind, Except.bind]

/-! ### document IDs -/

theorem idsOf_ok {fs ds : List (List Char)} (h : List.Forall₂ (fun f d => IsDocId d ∧ ∃ dir, FileOf dir d f) fs ds) : idsOf fs = .ok ds := by
  induction h with
  | nil => rfl
  | @cons f d fs ds h _ ih =>
    obtain ⟨hd, dir, ext, h1, h2, rfl⟩ := h
    rw [idsOf, basename_file _ (by simp [hd.plain.2.2.2.1, h2]), docIdOf_file hd h1]
    simp only [bind, Except.bind, ih]

/-- **C73** (document_ids) the IDs of all tokenized files, one for each file, sorted -/
theorem c73_ids (self pcc : Pcc) {ds : List (List Char)} (h : List.Forall₂ (fun f d => IsDocId d ∧ ∃ dir, FileOf dir d f) pcc.tokenization ds) :
    ∃ ids, self.documentIds pcc = .ok ids ∧ ids.Perm ds ∧ ids.Pairwise CharsBelow ∧ self.len pcc = .ok pcc.tokenization.length := by
  have e : self.documentIds pcc = .ok (pySorted charsLe ds) := by
    unfold Pcc.documentIds
    simp only [idsOf_ok h, bind, Except.bind]
  refine ⟨_, e, pySorted_perm _, ?_, ?_⟩
  · exact (pySorted_sorted charsLe_total (fun a b c => charsLe_trans) ds).imp (fun h => (charsLe_iff _ _).1 h)
  · unfold Pcc.len
    simp only [e, bind, Except.bind]
    rw [(pySorted_perm _).length_eq, h.length_eq]

/-- **C73** (document_ids) a tokenized file without an ID in its name: AttributeError -/
theorem c73_ids_reject (self pcc : Pcc) {f : List Char} (hf : f ∈ pcc.tokenization) (h : ∀ d, IsDocId d → ¬ d ++ ['.'] <:+: basename f) : self.documentIds pcc = .error .attribute := by
  have hf' : docIdOf (basename f) = none := by
    cases hk : docIdOf (basename f) with
    | none => rfl
    | some d => exact absurd (docIdOf_some hk).2 (h d (docIdOf_some hk).1)
  have : ∀ fs : List (List Char), f ∈ fs → idsOf fs = .error .attribute := by
    intro fs
    induction fs with
    | nil => intro k; cases k
    | cons x fs ih =>
      intro k
      rw [idsOf]
      cases hx : docIdOf (basename x) with
      | none => rfl
      | some d =>
        have : f ∈ fs := by
          rcases List.mem_cons.1 k with rfl | k
          · rw [hf'] at hx; cases hx
          · exact k
        simp only [ih this, bind, Except.bind]
  unfold Pcc.documentIds
  simp only [this _ hf, bind, Except.bind]

/-- **C73** (index) `corpus[i]` is the document with the i-th ID, from the end if `i` is negative; IndexError if there are not so many -/
theorem c73_index (self pcc : Pcc) {ids : List (List Char)} (h : self.documentIds pcc = .ok ids) (order : List PccLayer) (read : PccLayer → List Char → Except PyErr DG) (scheds : Nat → DG.Sched) :
    (∀ (i : Nat) d, ids[i]? = some d → self.getIndex pcc order read scheds i = self.getDocument order read scheds d) ∧
    (∀ (i : Nat) d, ids.reverse[i]? = some d → self.getIndex pcc order read scheds (-(i : Int) - 1) = self.getDocument order read scheds d) ∧
    (∀ i : Int, (ids.length : Int) ≤ i ∨ i < -(ids.length : Int) → self.getIndex pcc order read scheds i = .error .index) := by
  refine ⟨?_, ?_, ?_⟩
  · intro i d hi
    unfold Pcc.getIndex
    simp only [h, bind, Except.bind]
    rw [if_neg (by omega : ¬ (i : Int) < 0), if_neg (by omega : ¬ (i : Int) < 0), Int.toNat_natCast, hi]
  · intro i d hi
    have hlt : i < ids.length := by
      have := (List.getElem?_eq_some_iff.1 hi).1
      simpa using this
    rw [List.getElem?_reverse hlt] at hi
    unfold Pcc.getIndex
    simp only [h, bind, Except.bind]
    rw [if_pos (by omega : -(i : Int) - 1 < 0), if_neg (by omega)]
    have : (-(i : Int) - 1 + ids.length).toNat = ids.length - 1 - i := by omega
    rw [this, hi]
  · intro i hi
    unfold Pcc.getIndex
    simp only [h, bind, Except.bind]
    rcases hi with hi | hi
    · rw [if_neg (by omega : ¬ i < 0), if_neg (by omega : ¬ i < 0), List.getElem?_eq_none (by omega)]
    · rw [if_pos (by omega : i < 0), if_pos (by omega)]

/-! ### failures -/

/-- **C73 is violated** (files): a final part of an ID is taken for the ID of every document that ends in it, so that different texts are merged -/
theorem c73_fails_suffix {x : List Char} (h1 : '*' ∉ x) (h2 : '?' ∉ x) (pre dir f : List Char) (hf : FileOf dir (pre ++ x) f) : fnmatch (docPattern x) f = true := by
  obtain ⟨ext, -, -, rfl⟩ := hf
  exact (docPattern_iff h1 h2 _).2 ⟨dir ++ '/' :: pre, ext, by simp⟩

/-- **C73 is violated** (files): `2` (and `0`) is an ID of all files of the corpus, because of the directory `potsdam-commentary-corpus-2.0.0` -/
theorem c73_fails_directory (root rest : List Char) : fnmatch (docPattern ['2']) (root ++ "/potsdam-commentary-corpus-2.0.0/".toList ++ rest) = true := by
  refine (docPattern_iff (by decide) (by decide) _).2 ⟨root ++ "/potsdam-commentary-corpus-".toList, "0.0/".toList ++ rest, ?_⟩
  have : "/potsdam-commentary-corpus-2.0.0/".toList = "/potsdam-commentary-corpus-".toList ++ (['2'] ++ ['.']) ++ "0.0/".toList := by decide
  rw [this]
  simp

/-- **C73 is violated** (document_ids): every corpus object has the IDs of the corpus of the module, whatever its own files are -/
theorem c73_fails_global (self self' pcc : Pcc) : self.documentIds pcc = self'.documentIds pcc := rfl

/-! ### the hypotheses are met -/

theorem layer_of_check {strs : List String} {o : DG} (hr : DG.Inv o) (hl : (o.nodes.all (fun p => match find p.2 "layers" with
      | some (.set xs) => !xs.isEmpty && xs.all (fun x => match x with | .str _ => true | _ => false)
      | _ => false)) = true)
    (hs : o.HasTokens strs) (hn : o.tokens.Nodup) (hroot : o.root ∉ o.tokens) (hhas : o.HasNode o.root) (hin : (o.edges.all (fun e => decide (e.2.1 ≠ o.root))) = true)
    (hm : o.nodeAttr o.root "metadata" = some (.dict [])) : DG.Layer strs o ∧ o.Document strs := by
  have hl' : DG.NodesLayeredNE o := by
    apply DG.layered_of_all
    intro p hp
    have := List.all_eq_true.1 hl p hp
    split at this
    · rename_i xs hxs
      simp only [Bool.and_eq_true, Bool.not_eq_true', List.isEmpty_eq_false_iff, List.all_eq_true] at this
      refine ⟨xs, hxs, fun x hx => ?_, this.1⟩
      have h := this.2 x hx
      split at h
      · exact ⟨_, rfl⟩
      · cases h
    · cases this
  refine ⟨⟨hr, hl', hs, hn, hroot, hhas, ?_, fun v hv => ?_⟩, ⟨hr, ?_, hs, hn, hroot, ⟨[], hm⟩⟩⟩
  · intro u k h
    obtain ⟨a, ha⟩ := Option.isSome_iff_exists.1 h
    have := List.all_eq_true.1 hin _ ((DG.mem_edges_iff hr.inv.wf _ _ _ _).2 ha)
    simp at this
  · rw [hm] at hv; exact ⟨[], (Option.some.inj hv).symm⟩
  · intro n a ha
    obtain ⟨xs, h1, h2, -⟩ := hl' n a ha
    exact ⟨xs, h1, h2, fun h => h.elim⟩

theorem pccDoc (ns r t1 t2 sp : String) (h : DG.Inv (DG.mergeDoc ns r t1 t2 sp)) (h1 : ((DG.mergeDoc ns r t1 t2 sp).nodes.all (fun p => match find p.2 "layers" with
      | some (.set xs) => !xs.isEmpty && xs.all (fun x => match x with | .str _ => true | _ => false)
      | _ => false)) = true) (h2 : (DG.mergeDoc ns r t1 t2 sp).tokens = [.str t1, .str t2]) (h3 : (DG.mergeDoc ns r t1 t2 sp).TokenStr (.str t1) "x") (h4 : (DG.mergeDoc ns r t1 t2 sp).TokenStr (.str t2) "y")
    (h5 : t1 ≠ t2) (h6 : (DG.mergeDoc ns r t1 t2 sp).root ∉ (DG.mergeDoc ns r t1 t2 sp).tokens) (h7 : (DG.mergeDoc ns r t1 t2 sp).HasNode (DG.mergeDoc ns r t1 t2 sp).root)
    (h8 : ((DG.mergeDoc ns r t1 t2 sp).edges.all (fun e => decide (e.2.1 ≠ (DG.mergeDoc ns r t1 t2 sp).root))) = true)
    (h9 : (DG.mergeDoc ns r t1 t2 sp).nodeAttr (DG.mergeDoc ns r t1 t2 sp).root "metadata" = some (.dict [])) :
    DG.Layer ["x", "y"] (DG.mergeDoc ns r t1 t2 sp) ∧ (DG.mergeDoc ns r t1 t2 sp).Document ["x", "y"] :=
  layer_of_check h h1 (by unfold DG.HasTokens; rw [h2]; exact .cons h3 (.cons h4 .nil)) (by rw [h2]; simp [h5]) h6 h7 h8 h9

theorem pccDocA : DG.Layer ["x", "y"] (DG.mergeDoc "a" "ra" "a1" "a2" "as") ∧ (DG.mergeDoc "a" "ra" "a1" "a2" "as").Document ["x", "y"] :=
  pccDoc _ _ _ _ _ (DG.Reachable.inv ⟨"", "a", some (.str "ra"), _, by decide, rfl⟩) (by decide +kernel) (by decide +kernel) (show _ = _ by decide +kernel) (show _ = _ by decide +kernel) (by decide) (by decide +kernel) (by decide +kernel) (by decide +kernel) (by decide +kernel)
theorem pccDocB : DG.Layer ["x", "y"] (DG.mergeDoc "b" "rb" "b1" "b2" "bs") ∧ (DG.mergeDoc "b" "rb" "b1" "b2" "bs").Document ["x", "y"] :=
  pccDoc _ _ _ _ _ (DG.Reachable.inv ⟨"", "b", some (.str "rb"), _, by decide, rfl⟩) (by decide +kernel) (by decide +kernel) (show _ = _ by decide +kernel) (show _ = _ by decide +kernel) (by decide) (by decide +kernel) (by decide +kernel) (by decide +kernel) (by decide +kernel)
theorem pccDocC : DG.Layer ["x", "y"] (DG.mergeDoc "c" "rc" "c1" "c2" "cs") ∧ (DG.mergeDoc "c" "rc" "c1" "c2" "cs").Document ["x", "y"] :=
  pccDoc _ _ _ _ _ (DG.Reachable.inv ⟨"", "c", some (.str "rc"), _, by decide, rfl⟩) (by decide +kernel) (by decide +kernel) (show _ = _ by decide +kernel) (show _ = _ by decide +kernel) (by decide) (by decide +kernel) (by decide +kernel) (by decide +kernel) (by decide +kernel)

theorem pccApart {toks : List NodeId} {root : NodeId} {ns : String} {o : DG} (h1 : ∀ t ∈ toks, ¬ o.HasNode t) (h2 : ¬ o.HasNode root)
    (h3 : (o.nodes.all (fun p => (find p.2 (ns ++ (":" ++ "token"))).isNone)) = true) (h4 : ∀ t ∈ toks, t ≠ .int 0 ∧ t ≠ .str "") : DG.Apart toks root ns o := by
  refine ⟨h1, h2, fun n => ?_, .inl h4⟩
  cases hn : o.nodeAttrs n with
  | none => simp [DG.nodeAttr, hn]
  | some a =>
    have := List.all_eq_true.1 h3 _ (find_some_mem (show find o.nodes n = some a from hn))
    simpa [DG.nodeAttr, hn] using this

/-- chances for the third document -/
def mergeSchedC : DG.Sched := ⟨some [.str "c2", .str "c1"], [.str "a1", .str "a2"]⟩

theorem pccValid (o1 o2 a1 a2 : String) (h1 : NodeId.str o1 ∉ [NodeId.str a1, .str a2]) (h2 : NodeId.str o2 ∉ [NodeId.str a1, .str a2]) {s : DG.Sched}
    (hs : s.order = some [.str o1, .str o2] ∨ s.order = some [.str o2, .str o1]) (hv : s.vals.Perm [.str a1, .str a2]) :
    s.Valid ([NodeId.str o1, .str o2].zip [.str a1, .str a2]) := by
  refine ⟨?_, hv⟩
  unfold DG.RelabelOrder
  rw [if_neg (by
    rintro ⟨x, hx1, hx2⟩
    simp [keys, vals] at hx1 hx2
    simp at h1 h2
    rcases hx1 with rfl | rfl <;> rcases hx2 with hx2 | hx2 <;> simp at hx2 <;> first | exact h1.1 hx2 | exact h1.2 hx2 | exact h2.1 hx2 | exact h2.2 hx2)]
  rcases hs with h | h
  · exact ⟨_, h, List.Perm.refl _⟩
  · exact ⟨_, h, List.Perm.swap _ _ _⟩

def pccA : DG := DG.mergeDoc "a" "ra" "a1" "a2" "as"
def pccB : DG := DG.mergeDoc "b" "rb" "b1" "b2" "bs"
def pccC : DG := DG.mergeDoc "c" "rc" "c1" "c2" "cs"

theorem pccApartB : DG.Apart pccA.tokens pccA.root pccA.ns pccB := pccApart (by decide +kernel) (by decide +kernel) (by decide +kernel) (by decide +kernel)
theorem pccApartC : DG.Apart pccA.tokens pccA.root pccA.ns pccC := pccApart (by decide +kernel) (by decide +kernel) (by decide +kernel) (by decide +kernel)
theorem pccValidB : DG.mergeSched.Valid (pccB.tokens.zip pccA.tokens) := by
  rw [show pccB.tokens = [.str "b1", .str "b2"] by decide +kernel, show pccA.tokens = [.str "a1", .str "a2"] by decide +kernel]
  exact pccValid _ _ _ _ (by decide) (by decide) (.inl rfl) (List.Perm.swap _ _ _)
theorem pccValidC : mergeSchedC.Valid (pccC.tokens.zip pccA.tokens) := by
  rw [show pccC.tokens = [.str "c1", .str "c2"] by decide +kernel, show pccA.tokens = [.str "a1", .str "a2"] by decide +kernel]
  exact pccValid _ _ _ _ (by decide) (by decide) (.inr rfl) (List.Perm.refl _)

/-- the hypotheses of `c73_merge_layers_partial` are met by three annotations of the text "x y" -/
example : ∃ g', pccA.mergeAll [(pccB, DG.mergeSched), (pccC, mergeSchedC)] = (g', none) ∧ g'.tokens = [.str "a1", .str "a2"] ∧ DG.LayerIn [pccC] pccB g' ∧ DG.LayerIn [] pccC g' ∧ g'.edges.length = 6 := by
  obtain ⟨g', h1, -, h3, -, -, h6, -, h8, -⟩ := c73_merge_layers_partial (strs := ["x", "y"]) (by simp) [(pccB, DG.mergeSched), (pccC, mergeSchedC)] pccDocA.2
    (by
      intro p hp
      simp only [List.mem_cons, List.not_mem_nil, or_false] at hp
      rcases hp with rfl | rfl
      · exact ⟨pccDocB.1, pccApartB, by decide +kernel, pccValidB⟩
      · exact ⟨pccDocC.1, pccApartC, by decide +kernel, pccValidC⟩)
    (by
      simp only [List.pairwise_cons, List.mem_cons, List.not_mem_nil, or_false, forall_eq, false_imp_iff, implies_true, and_true, List.Pairwise.nil]
      exact ⟨by decide +kernel, by decide +kernel⟩)
  refine ⟨g', h1, h3.trans (by decide +kernel), h6 [] _ _ rfl, h6 [_] _ [] rfl, ?_⟩
  have := h8.count
  rw [show (DG.mergeDoc "a" "ra" "a1" "a2" "as").edges.length = 2 by decide +kernel] at this
  simp only [List.map_cons, List.map_nil, List.sum_cons, List.sum_nil] at this
  rw [show pccB.edges.length = 2 by decide +kernel, show pccC.edges.length = 2 by decide +kernel] at this
  exact this

/-- a corpus with two documents; the second one has no coreference -/
def pccSmall : Pcc := ⟨fun
  | .rst => ["/d/rst/maz-12.rs3".toList, "/d/rst/maz-2.rs3".toList]
  | .syntax => ["/d/syntax/maz-2.xml".toList, "/d/syntax/maz-12.xml".toList]
  | .coreference => ["/d/coref/maz-12.mmax".toList]
  | .connectors => [],
  ["/d/tokenized/maz-2.tok".toList, "/d/tokenized/maz-12.tok".toList]⟩

theorem pccId12 : IsDocId "maz-12".toList := ⟨['1', '2'], by simp, by decide, by decide⟩
theorem pccId2 : IsDocId "maz-2".toList := ⟨['2'], by simp, by decide, by decide⟩

/-- the hypotheses of `c73_files` and `c73_document_files` are met -/
example : FileOf "/d/rst".toList "maz-12".toList "/d/rst/maz-12.rs3".toList ∧ ¬ "maz-2".toList ++ ['.'] <:+: "/d/rst".toList := ⟨⟨"rs3".toList, by decide, by decide, by decide⟩, by decide⟩
example (l : PccLayer) (f : List Char) : (l, f) ∈ pccSmall.docFiles [.connectors, .rst, .syntax, .coreference] "maz-2".toList ↔ f ∈ pccSmall.layers l ∧ ∃ dir, FileOf dir "maz-2".toList f :=
  c73_document_files pccSmall (by intro l; cases l <;> decide) pccId2 (by
    intro l f hf
    have h12 : ∀ dir ext : String, '.' ∉ ext.toList → '/' ∉ ext.toList → f = dir.toList ++ '/' :: ("maz-12".toList ++ '.' :: ext.toList) → ¬ "maz-2".toList ++ ['.'] <:+: dir.toList →
        ∃ e dir, IsDocId e ∧ FileOf dir e f ∧ ¬ "maz-2".toList ++ ['.'] <:+: dir := fun dir ext h1 h2 h3 h4 => ⟨_, _, pccId12, ⟨_, h1, h2, h3⟩, h4⟩
    have h2 : ∀ dir ext : String, '.' ∉ ext.toList → '/' ∉ ext.toList → f = dir.toList ++ '/' :: ("maz-2".toList ++ '.' :: ext.toList) → ¬ "maz-2".toList ++ ['.'] <:+: dir.toList →
        ∃ e dir, IsDocId e ∧ FileOf dir e f ∧ ¬ "maz-2".toList ++ ['.'] <:+: dir := fun dir ext h1 h2 h3 h4 => ⟨_, _, pccId2, ⟨_, h1, h2, h3⟩, h4⟩
    cases l <;> simp only [pccSmall, List.mem_cons, List.not_mem_nil, or_false] at hf
    · exact h12 "/d/coref" "mmax" (by decide) (by decide) (hf.trans (by decide +kernel)) (by decide +kernel)
    · rcases hf with h | h
      · exact h12 "/d/rst" "rs3" (by decide) (by decide) (h.trans (by decide +kernel)) (by decide +kernel)
      · exact h2 "/d/rst" "rs3" (by decide) (by decide) (h.trans (by decide +kernel)) (by decide +kernel)
    · rcases hf with h | h
      · exact h2 "/d/syntax" "xml" (by decide) (by decide) (h.trans (by decide +kernel)) (by decide +kernel)
      · exact h12 "/d/syntax" "xml" (by decide) (by decide) (h.trans (by decide +kernel)) (by decide +kernel)) l f
example : pccSmall.docFiles [.connectors, .rst, .syntax, .coreference] "maz-2".toList = [(.rst, "/d/rst/maz-2.rs3".toList), (.syntax, "/d/syntax/maz-2.xml".toList)] := by decide +kernel

/-- readers of the small corpus -/
def pccRead : PccLayer → List Char → Except PyErr DG
  | .rst, _ => .ok pccA
  | .syntax, _ => .ok pccB
  | .coreference, _ => .ok pccC
  | .connectors, _ => .error .io

/-- the hypotheses of `c73_get_document_partial` are met -/
example : ∃ g', pccSmall.getDocument [.connectors, .rst, .syntax, .coreference] pccRead (fun i => if i = 0 then DG.mergeSched else mergeSchedC) "maz-12".toList = .ok g' ∧ DG.LayerIn [pccC] pccB g' ∧ DG.LayerIn [] pccC g' := by
  obtain ⟨g', h1, -, -, h4, -, -⟩ := c73_get_document_partial pccSmall [.connectors, .rst, .syntax, .coreference] (read := pccRead) (scheds := fun i => if i = 0 then DG.mergeSched else mergeSchedC)
    (d := "maz-12".toList) (first := (.rst, "/d/rst/maz-12.rs3".toList)) (rest := [(.syntax, "/d/syntax/maz-12.xml".toList), (.coreference, "/d/coref/maz-12.mmax".toList)]) (by decide +kernel)
    (graph := fun p => match p.1 with | .rst => pccA | .syntax => pccB | _ => pccC)
    (by
      rw [show pccSmall.docFiles [.connectors, .rst, .syntax, .coreference] "maz-12".toList = [(.rst, "/d/rst/maz-12.rs3".toList), (.syntax, "/d/syntax/maz-12.xml".toList), (.coreference, "/d/coref/maz-12.mmax".toList)] by decide +kernel]
      intro p hp
      simp only [List.mem_cons, List.not_mem_nil, or_false] at hp
      rcases hp with rfl | rfl | rfl <;> rfl)
    (strs := ["x", "y"]) (by simp) pccDocA.2
    (by
      intro p hp
      simp only [List.mem_cons, List.not_mem_nil, or_false] at hp
      rcases hp with rfl | rfl
      · exact ⟨pccDocB.1, pccApartB, by decide +kernel⟩
      · exact ⟨pccDocC.1, pccApartC, by decide +kernel⟩)
    (by
      simp only [List.pairwise_cons, List.mem_cons, List.not_mem_nil, or_false, forall_eq, false_imp_iff, implies_true, and_true, List.Pairwise.nil]
      exact ⟨by decide +kernel, by decide +kernel⟩)
    (by
      intro i p hi
      match i with
      | 0 => simp at hi; subst hi; exact pccValidB
      | 1 => simp at hi; subst hi; exact pccValidC
      | n + 2 => simp at hi)
  exact ⟨g', h1, h4 [] _ _ rfl, h4 [_] _ [] rfl⟩

/-- the hypotheses of `c73_ids`, `c73_index`, `c73_no_document` and `c73_ids_reject` are met -/
example : List.Forall₂ (fun f d => IsDocId d ∧ ∃ dir, FileOf dir d f) pccSmall.tokenization ["maz-2".toList, "maz-12".toList] :=
  .cons ⟨pccId2, "/d/tokenized".toList, "tok".toList, by decide, by decide, by decide⟩ (.cons ⟨pccId12, "/d/tokenized".toList, "tok".toList, by decide, by decide, by decide⟩ .nil)
example : (pccSmall.documentIds pccSmall).toOption = some ["maz-12".toList, "maz-2".toList] := by decide +kernel
example : pccSmall.docFiles [.connectors, .rst, .syntax, .coreference] "maz-3".toList = [] := by decide +kernel
example : (pccSmall.documentIds ⟨pccSmall.layers, ["/d/tokenized/readme.txt".toList]⟩) = .error .attribute := by
  refine c73_ids_reject _ _ (f := "/d/tokenized/readme.txt".toList) List.mem_cons_self ?_
  intro d hd h
  obtain ⟨n, -, -, rfl⟩ := hd
  have : 'z' ∈ basename "/d/tokenized/readme.txt".toList := h.subset (by simp)
  exact absurd this (by decide)

end Dg
