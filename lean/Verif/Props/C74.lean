import Verif.Spec.MergingCli
import Verif.Props.C73

/-! C74: merging on the command line. -/

namespace Dg
open Dict

theorem path_some (a : CliArgs) (k : CliKind) (p : String) : a.path k = some p ↔ a.Given k p := by
  unfold CliArgs.path CliArgs.Given
  rw [Option.filter_eq_some_iff]
  simp

theorem path_none (a : CliArgs) (k : CliKind) : a.path k = none ↔ a.NotGiven k := by
  unfold CliArgs.path CliArgs.NotGiven
  rw [Option.filter_eq_none_iff]
  cases h : a.file k <;> simp

theorem filesExist_iff {α : Type} (env : CliEnv α) (a : CliArgs) : filesExist env a = true ↔ ∀ k p, k ≠ .mmax → a.Given k p → env.isFile p = true := by
  unfold filesExist
  simp only [List.all_eq_true, List.mem_cons, List.not_mem_nil, or_false]
  constructor
  · intro h k p hk hg
    have := h k (by cases k <;> simp_all)
    rw [(path_some a k p).2 hg] at this
    exact this
  · intro h k hk
    cases hp : a.path k with
    | none => rfl
    | some p => exact h k p (by rcases hk with rfl | rfl | rfl | rfl <;> simp) ((path_some a k p).1 hp)

/-! ### merging of several layers into the empty document -/

/-- the empty document of the application -/
theorem emptyDoc_facts : DG.Inv (DG.init "" "discoursegraph" none) ∧ DG.NodesLayered False (DG.init "" "discoursegraph" none) ∧
    (DG.init "" "discoursegraph" none).nodeAttr (DG.init "" "discoursegraph" none).root "metadata" = some (.dict []) ∧ (DG.init "" "discoursegraph" none).edges = [] := by
  refine ⟨DG.Reachable.inv ⟨"", "discoursegraph", none, [], by simp, rfl⟩, ?_, by decide +kernel, by decide +kernel⟩
  have : (DG.init "" "discoursegraph" none).nodes = [(.str "discoursegraph:root_node", [("layers", .set [.str "discoursegraph"]), ("metadata", .dict [])])] := by decide +kernel
  intro n a ha
  have hm := find_some_mem (show find (DG.init "" "discoursegraph" none).nodes n = some a from ha)
  rw [this] at hm
  simp at hm
  unfold DG.LayeredB
  rcases hm with ⟨_, rfl⟩
  simp

theorem emptyDoc_has (n : NodeId) : (DG.init "" "discoursegraph" none).HasNode n ↔ n = .str "discoursegraph:root_node" := by
  have : (DG.init "" "discoursegraph" none).HasNode n ↔ n ∈ keys (DG.init "" "discoursegraph" none).nodes := by
    rw [DG.hasNode_iff', mem_keys_iff]
    rfl
  rw [this, show keys (DG.init "" "discoursegraph" none).nodes = [.str "discoursegraph:root_node"] by decide +kernel]
  simp

theorem emptyMerge {strs : List String} (hne : strs ≠ []) {o : DG} {s : DG.Sched} {layers : List (DG × DG.Sched)}
    (ho : DG.Layer strs o) (hs : s.Valid [])
    (hall : ∀ p ∈ (o, s) :: layers, ¬ p.1.HasNode (.str "discoursegraph:root_node") ∧ ∀ n, p.1.nodeAttr n "discoursegraph:token" = none)
    (hl : ∀ p ∈ layers, DG.Layer strs p.1 ∧ DG.Apart o.tokens (.str "discoursegraph:root_node") "discoursegraph" p.1 ∧ p.2.Valid (p.1.tokens.zip o.tokens))
    (hp : ((o, s) :: layers).Pairwise (fun a b => ¬ a.1.HasNode b.1.root ∧ ¬ b.1.HasNode a.1.root)) :
    ∃ g', (DG.init "" "discoursegraph" none).mergeAll ((o, s) :: layers) = (g', none) ∧ g'.Document strs ∧ g'.tokens = o.tokens ∧ g'.root = .str "discoursegraph:root_node" ∧ g'.ns = "discoursegraph" ∧
      (∀ before p later, (o, s) :: layers = before ++ p :: later → DG.LayerIn (later.map Prod.fst) p.1 g') ∧ DG.OnlyFrom (((o, s) :: layers).map Prod.fst) (DG.init "" "discoursegraph" none) g' ∧
      DG.metadataOf g' = (((o, s) :: layers).map (fun p => DG.metadataOf p.1)).foldl upd [] := by
  obtain ⟨e1, e2, e3, e4⟩ := emptyDoc_facts
  obtain ⟨f1, f2⟩ := hall _ List.mem_cons_self
  have nroot : ∀ {x : DG}, DG.Layer strs x → ¬ x.HasNode (.str "discoursegraph:root_node") → x.root ≠ .str "discoursegraph:root_node" := by
    intro x hx h e
    exact h (e ▸ hx.hasRoot)
  obtain ⟨g1, a1, a2, a3, a4, a5, a6, a7, a8, a9⟩ := DG.firstLayer e1 e2 (show (DG.init "" "discoursegraph" none).tokens = [] by decide +kernel) ⟨_, e3⟩ ho f1 f2
    (by rw [emptyDoc_has]; exact nroot ho f1)
    (by
      intro t ht h
      rw [emptyDoc_has] at h
      subst h
      obtain ⟨i, hi⟩ := List.getElem?_of_mem ht
      obtain ⟨str, -, h1⟩ := DG.hasTokens_get ho.strings hi
      obtain ⟨a, h2⟩ := DG.nodeAttr_hasNode (show o.nodeAttr _ _ = some _ from h1)
      exact f1 (DG.hasNode_iff'.2 ⟨a, h2⟩)) hs
  have r1 : g1.root = .str "discoursegraph:root_node" := a4
  have n1 : g1.ns = "discoursegraph" := a5
  obtain ⟨p1, p2⟩ := List.pairwise_cons.1 hp
  obtain ⟨g', b1, b2, b3, b4, b5, b6, b7, b8, b9⟩ := DG.mergeAll_spec hne layers a2 (fun p hm => by
    obtain ⟨k1, k2, k3⟩ := hl p hm
    refine ⟨k1, by rw [a3, r1, n1]; exact k2, ?_, by rw [a3]; exact k3⟩
    intro h
    rcases a8.nodes _ h with h | ⟨o', ho', n, hn, -, he⟩
    · rw [emptyDoc_has] at h
      exact nroot k1 k2.root h
    · rw [List.mem_singleton.1 ho'] at hn he
      unfold DG.asIn at he
      rw [a3, DG.applyMap_zip_self] at he
      subst he
      exact (p1 p hm).1 hn) p2
  have hgone : ¬ g'.HasNode o.root := by
    refine b8.not_root a2 b3 a6.rootGone ?_
    intro o' ho' hn
    obtain ⟨p, hp, rfl⟩ := List.mem_map.1 ho'
    exact absurd hn (p1 p hp).2
  refine ⟨g', ?_, b2, b3.trans a3, b4.trans r1, b5.trans n1, ?_, a8.trans b8 b3 b4, ?_⟩
  · unfold DG.mergeAll; rw [a1]; exact b1
  · intro before p later h
    cases before with
    | nil =>
      simp only [List.nil_append, List.cons.injEq] at h
      obtain ⟨rfl, rfl⟩ := h
      exact a6.kept b7 b3 b4 b5 hgone
    | cons r before =>
      simp only [List.cons_append, List.cons.injEq] at h
      exact b6 before p later h.2
  · rw [b9, a9, show DG.metadataOf (DG.init "" "discoursegraph" none) = [] by decide +kernel]; rfl

/-! ### the files -/

theorem mergeFile_skip {α : Type} {env : CliEnv α} {a : CliArgs} {k : CliKind} (h : a.NotGiven k) (g : DG) : mergeFile env a k g = .ok g := by
  unfold mergeFile
  rw [(path_none a k).2 h]

theorem mergeFile_take {α : Type} {env : CliEnv α} {a : CliArgs} {k : CliKind} {p : String} (h : a.Given k p) {o : DG} (hr : env.read k p = .ok o) (g : DG) :
    mergeFile env a k g = match g.mergeGraphs o (env.sched k) with | (g', none) => .ok g' | (_, some e) => .error e := by
  unfold mergeFile
  rw [(path_some a k p).2 h]
  simp only [bind, Except.bind, hr]
  obtain ⟨g', _ | e⟩ := g.mergeGraphs o (env.sched k) <;> rfl

theorem fold_mergeFile {α : Type} {env : CliEnv α} {a : CliArgs} {graph : CliKind × String → DG} : ∀ (ks : List CliKind) (files : List (CliKind × String)) (g : DG), ks.Nodup → (files.map Prod.fst).Sublist ks →
    (∀ k p, k ∈ ks → ((k, p) ∈ files ↔ a.Given k p)) → (∀ f ∈ files, env.read f.1 f.2 = .ok (graph f)) →
    ks.foldlM (fun g k => mergeFile env a k g) g = match g.mergeAll (files.map (fun f => (graph f, env.sched f.1))) with | (g', none) => .ok g' | (_, some e) => .error e := by
  intro ks
  induction ks with
  | nil =>
    intro files g _ hs _ _
    have : files = [] := by simpa using hs
    subst this
    rfl
  | cons k ks ih =>
    intro files g hn hs hg hr
    obtain ⟨n1, n2⟩ := List.nodup_cons.1 hn
    rw [List.foldlM_cons]
    cases files with
    | nil =>
      rw [mergeFile_skip ((path_none a k).1 (by
        cases hp : a.path k with
        | none => rfl
        | some p => exact absurd ((hg k p List.mem_cons_self).2 ((path_some a k p).1 hp)) (by simp)))]
      exact ih [] g n2 (List.nil_sublist _) (fun k' p hk => hg k' p (List.mem_cons_of_mem _ hk)) (by simp)
    | cons f files =>
      obtain ⟨k0, p0⟩ := f
      by_cases hk : k0 = k
      · subst hk
        have hs' : (files.map Prod.fst).Sublist ks := by
          have := hs
          rw [List.map_cons] at this
          exact List.cons_sublist_cons.1 this
        rw [mergeFile_take ((hg k0 p0 List.mem_cons_self).1 List.mem_cons_self) (hr _ List.mem_cons_self)]
        rw [List.map_cons, DG.mergeAll]
        generalize hm : g.mergeGraphs (graph (k0, p0)) (env.sched k0) = r
        obtain ⟨g1, e⟩ := r
        cases e with
        | some e => rfl
        | none =>
          exact ih files g1 n2 hs' (fun k' p hk' => by
            rw [← hg k' p (List.mem_cons_of_mem _ hk'), List.mem_cons]
            refine ⟨fun h => .inr h, fun h => ?_⟩
            rcases h with h | h
            · rw [Prod.mk.injEq] at h
              exact absurd (h.1 ▸ hk') n1
            · exact h) (fun f hf => hr f (List.mem_cons_of_mem _ hf))
      · have hs' : (((k0, p0) :: files).map Prod.fst).Sublist ks := by
          rw [List.map_cons] at hs ⊢
          cases hs with
          | cons _ h => exact h
          | cons_cons _ h => exact absurd rfl hk
        rw [mergeFile_skip ((path_none a k).1 (by
          cases hp : a.path k with
          | none => rfl
          | some p =>
            have := (hg k p List.mem_cons_self).2 ((path_some a k p).1 hp)
            exact absurd (hs'.subset (List.mem_map_of_mem (f := Prod.fst) this)) n1))]
        exact ih _ g n2 hs' (fun k' p hk' => hg k' p (List.mem_cons_of_mem _ hk')) hr

theorem cliGraph_eq {α : Type} (env : CliEnv α) {a : CliArgs} (hana : a.NotGiven .anaphoricity) :
    cliGraph env a = if filesExist env a then [CliKind.tiger, .rst, .conano, .mmax].foldlM (fun g k => mergeFile env a k g) (DG.init "" "discoursegraph" none) else .error .assertion := by
  unfold cliGraph
  simp only [mergeFile_skip hana, (path_none a .anaphoricity).2 hana, List.foldlM_cons, List.foldlM_nil, bind_pure, Option.isSome_none, Bool.false_eq_true, if_false]
  rfl

theorem cliGraph_all {α : Type} (env : CliEnv α) {a : CliArgs} (hana : a.NotGiven .anaphoricity) {files : List (CliKind × String)} (hf : a.FilesAre files)
    (hex : ∀ k p, (k, p) ∈ files → k ≠ .mmax → env.isFile p = true) {graph : CliKind × String → DG} (hr : ∀ f ∈ files, env.read f.1 f.2 = .ok (graph f)) :
    cliGraph env a = match (DG.init "" "discoursegraph" none).mergeAll (files.map (fun f => (graph f, env.sched f.1))) with | (g', none) => .ok g' | (_, some e) => .error e := by
  rw [cliGraph_eq env hana, if_pos ((filesExist_iff env a).2 (by
    intro k p hk hg
    by_cases hka : k = .anaphoricity
    · subst hka
      rw [← path_none] at hana
      rw [← path_some, hana] at hg
      cases hg
    · exact hex k p ((hf.2 k p).2 ⟨hg, hka⟩) hk))]
  exact fold_mergeFile _ files _ (by decide) hf.1 (fun k p hk => by
    rw [hf.2 k p]
    exact ⟨fun h => h.1, fun h => ⟨h, by rintro rfl; simp at hk⟩⟩) hr

/-- **C74** (merging), partial.  If the given files (no anaphoricity file) exist, can be read and are layers of the same text with different IDs, the application builds a document with the text and tokens of the first one,
which has all layers completely (in the order syntax, rhetorical structure, connectives, coreference) and nothing else but its root, with the metadata of all of them.
Missing: as C73. -/
theorem c74_merges_partial {α : Type} (env : CliEnv α) {a : CliArgs} (hana : a.NotGiven .anaphoricity) {first : CliKind × String} {rest : List (CliKind × String)} (hf : a.FilesAre (first :: rest))
    (hex : ∀ k p, (k, p) ∈ first :: rest → k ≠ .mmax → env.isFile p = true) {graph : CliKind × String → DG} (hr : ∀ f ∈ first :: rest, env.read f.1 f.2 = .ok (graph f))
    {strs : List String} (hne : strs ≠ []) (hl : ∀ f ∈ first :: rest, DG.Layer strs (graph f) ∧ ¬ (graph f).HasNode (.str "discoursegraph:root_node") ∧ ∀ n, (graph f).nodeAttr n "discoursegraph:token" = none)
    (ha : ∀ f ∈ rest, DG.Apart (graph first).tokens (.str "discoursegraph:root_node") "discoursegraph" (graph f))
    (hp : (first :: rest).Pairwise (fun x y => ¬ (graph x).HasNode (graph y).root ∧ ¬ (graph y).HasNode (graph x).root))
    (hs : (env.sched first.1).Valid [] ∧ ∀ f ∈ rest, (env.sched f.1).Valid ((graph f).tokens.zip (graph first).tokens)) :
    ∃ g', cliGraph env a = .ok g' ∧ g'.Document strs ∧ g'.tokens = (graph first).tokens ∧ (∀ before f later, first :: rest = before ++ f :: later → DG.LayerIn (later.map graph) (graph f) g') ∧
      (∀ n, g'.HasNode n → n = .str "discoursegraph:root_node" ∨ ∃ f ∈ first :: rest, ∃ m, (graph f).HasNode m ∧ m ≠ (graph f).root ∧ DG.asIn g'.tokens (graph f) m = n) ∧
      g'.edges.length = ((first :: rest).map (fun f => (graph f).edges.length)).sum ∧
      DG.metadataOf g' = ((first :: rest).map (fun f => DG.metadataOf (graph f))).foldl upd [] := by
  obtain ⟨g', h1, h2, h3, -, -, h6, h7, h8⟩ := emptyMerge hne (o := graph first) (s := env.sched first.1) (layers := rest.map (fun f => (graph f, env.sched f.1))) (hl first List.mem_cons_self).1 hs.1
    (by
      intro p hp
      rw [← List.map_cons (f := fun f => (graph f, env.sched f.1))] at hp
      obtain ⟨f, hf, rfl⟩ := List.mem_map.1 hp
      exact (hl f hf).2)
    (by
      intro p hp
      obtain ⟨f, hf, rfl⟩ := List.mem_map.1 hp
      exact ⟨(hl f (List.mem_cons_of_mem _ hf)).1, ha f hf, hs.2 f hf⟩)
    (by
      rw [← List.map_cons (f := fun f => (graph f, env.sched f.1)), List.pairwise_map]
      exact hp)
  rw [← List.map_cons (f := fun f => (graph f, env.sched f.1))] at h1 h6 h7 h8
  have hfst : ∀ l : List (CliKind × String), (l.map (fun f => (graph f, env.sched f.1))).map Prod.fst = l.map graph := by intro l; rw [List.map_map]; rfl
  rw [hfst] at h7
  refine ⟨g', ?_, h2, h3, ?_, ?_, ?_, ?_⟩
  · rw [cliGraph_all env hana hf hex hr, h1]
  · intro before f later he
    have := h6 (before.map (fun f => (graph f, env.sched f.1))) (graph f, env.sched f.1) (later.map (fun f => (graph f, env.sched f.1))) (by rw [he, List.map_append, List.map_cons])
    rw [hfst] at this
    exact this
  · intro n hn
    rcases h7.nodes n hn with h | ⟨o, ho, m, q⟩
    · exact .inl ((emptyDoc_has n).1 h)
    · obtain ⟨f, hf, rfl⟩ := List.mem_map.1 ho
      exact .inr ⟨f, hf, m, q⟩
  · have := h7.count
    rw [emptyDoc_facts.2.2.2, List.map_map] at this
    rw [this]
    simp [Function.comp_def]
  · rw [h8, List.map_map]; rfl

/-- **C74** (merging) without files: an empty document -/
theorem c74_no_files {α : Type} (env : CliEnv α) {a : CliArgs} (h : ∀ k, a.NotGiven k) : cliGraph env a = .ok (DG.init "" "discoursegraph" none) := by
  rw [cliGraph_all (graph := fun _ => DG.init "" "discoursegraph" none) env (h _) (files := []) ⟨List.nil_sublist _, fun k p => by
    have := (path_none a k).2 (h k)
    rw [← path_some, this]
    simp⟩ (by simp) (by simp)]
  rfl

/-- **C74** (missing files) AssertionError, before anything is read -/
theorem c74_missing_file {α : Type} (env : CliEnv α) {a : CliArgs} {k : CliKind} {p : String} (hg : a.Given k p) (hk : k ≠ .mmax) (h : env.isFile p = false) : mergingCli env a = .error .assertion := by
  have : filesExist env a = false := by
    rw [← Bool.not_eq_true]
    intro hc
    rw [(filesExist_iff env a).1 hc k p hk hg] at h
    cases h
  unfold mergingCli cliGraph
  rw [this]
  rfl

/-! ### output -/

theorem cliWriter_iff (f : String) (w : CliWriter) : cliWriter f = some w ↔ CliFormat f w := by
  constructor
  · intro h
    unfold cliWriter at h
    repeat' split at h
    all_goals first
      | (cases h; subst f; constructor)
      | (rename_i hh; cases h; rcases hh with rfl | rfl <;> constructor)
      | cases h
  · intro h
    cases h <;> decide

/-- **C74** (output) the merged graph is given to the function for the format, once; pickle files need a name -/
theorem c74_output {α : Type} (env : CliEnv α) {a : CliArgs} {w : CliWriter} (hw : CliFormat a.format w) {g : DG} (hg : cliGraph env a = .ok g) (hp : w = .pickle → a.output ≠ none) :
    mergingCli env a = (env.write w a.output g).map some := by
  unfold mergingCli
  simp only [hg, bind, Except.bind, (cliWriter_iff _ _).2 hw]
  rw [if_neg (fun h => hp h.1 h.2)]
  cases env.write w a.output g <;> rfl

/-- **C74** (output) `no-output`: nothing is written -/
theorem c74_no_output {α : Type} (env : CliEnv α) {a : CliArgs} (hw : a.format = "no-output") {g : DG} (hg : cliGraph env a = .ok g) : mergingCli env a = .ok none := by
  unfold mergingCli
  simp only [hg, bind, Except.bind, hw]
  rfl

/-- **C74** (errors) an error while reading and merging is passed on -/
theorem c74_graph_error {α : Type} (env : CliEnv α) {a : CliArgs} {e : PyErr} (hg : cliGraph env a = .error e) : mergingCli env a = .error e := by
  unfold mergingCli
  simp only [hg, bind, Except.bind]

/-- **C74** (errors) an exception while merging, e.g. because two files are annotations of different texts (C21), ends the application -/
theorem c74_merge_error {α : Type} (env : CliEnv α) {a : CliArgs} (hana : a.NotGiven .anaphoricity) {files : List (CliKind × String)} (hf : a.FilesAre files)
    (hex : ∀ k p, (k, p) ∈ files → k ≠ .mmax → env.isFile p = true) {graph : CliKind × String → DG} (hr : ∀ f ∈ files, env.read f.1 f.2 = .ok (graph f)) {e : PyErr}
    (h : ((DG.init "" "discoursegraph" none).mergeAll (files.map (fun f => (graph f, env.sched f.1)))).2 = some e) : mergingCli env a = .error e := by
  refine c74_graph_error env ?_
  rw [cliGraph_all env hana hf hex hr]
  generalize (DG.init "" "discoursegraph" none).mergeAll (files.map (fun f => (graph f, env.sched f.1))) = r at h ⊢
  obtain ⟨g', e'⟩ := r
  subst h
  rfl

/-! ### failures -/

/-- **C74 is violated** (formats): an unknown format is only found out after all the work: ValueError -/
theorem c74_fails_format {α : Type} (env : CliEnv α) {a : CliArgs} (hw : ∀ w, ¬ CliFormat a.format w) (hn : a.format ≠ "no-output") {g : DG} (hg : cliGraph env a = .ok g) : mergingCli env a = .error .value := by
  have : cliWriter a.format = none := by
    cases h : cliWriter a.format with
    | none => rfl
    | some w => exact absurd ((cliWriter_iff _ _).1 h) (hw w)
  unfold mergingCli
  simp only [hg, bind, Except.bind, this]
  rw [if_neg hn]

/-- **C74 is violated** (standard output): pickle files cannot be written to standard output, although that is the default -/
theorem c74_fails_pickle {α : Type} (env : CliEnv α) {a : CliArgs} (hw : a.format = "pickle") (ho : a.output = none) {g : DG} (hg : cliGraph env a = .ok g) : mergingCli env a = .error .type := by
  unfold mergingCli
  simp only [hg, bind, Except.bind, hw, ho]
  rfl

theorem removeNode_gone {g g' : DG} {n : NodeId} (h : g.removeNode n = .ok g') : ¬ g'.HasNode n := by
  unfold DG.removeNode at h
  split at h
  · injection h with h
    rw [DG.hasNode_iff']
    rintro ⟨a, ha⟩
    have : g'.nodeAttrs n = none := by
      rw [← h]
      show find (del g.nodes n) n = none
      rw [find_del, if_pos rfl]
    rw [this] at ha
    cases ha
  · cases h

theorem mergeGraphs_gone {g o g' : DG} (ho : DG.Inv o) {s : DG.Sched} (h : g.mergeGraphs o s = (g', none)) : ¬ g'.HasNode o.root := by
  unfold DG.mergeGraphs at h
  simp only at h
  split at h
  · simp at h
  · rename_i m hm
    have r2 := DG.ran_renameTokens ho.inv m s
    split at h
    · simp at h
    · rename_i o' h2
      rw [h2] at r2
      rw [← (r2.root.1 : o'.root = o.root)]
      unfold DG.mergeRenamed at h
      split at h
      · simp at h
      · split at h
        · simp at h
        · split at h
          · simp at h
          · rename_i g3 h3
            unfold DG.mergeRootnodes at h
            split at h
            · simp at h
            · split at h
              · split at h
                · simp at h
                · rename_i g4 h4
                  unfold DG.lift at h
                  split at h
                  · rename_i g5 h5
                    rw [Prod.mk.injEq] at h
                    rw [← h.1]
                    exact removeNode_gone h5
                  · simp at h
              · simp at h

theorem mergeFile_gone {α : Type} {env : CliEnv α} {a : CliArgs} {k : CliKind} {p : String} (h : a.Given k p) (hr : ∀ o, env.read k p = .ok o → DG.Inv o) {g g' : DG} (hm : mergeFile env a k g = .ok g') :
    ∃ o, env.read k p = .ok o ∧ ¬ g'.HasNode o.root := by
  cases ho : env.read k p with
  | error e =>
    unfold mergeFile at hm
    rw [(path_some a k p).2 h] at hm
    simp only [bind, Except.bind, ho] at hm
    cases hm
  | ok o =>
    refine ⟨o, rfl, ?_⟩
    rw [mergeFile_take h ho] at hm
    split at hm
    · rename_i g1 h1
      cases hm
      exact mergeGraphs_gone (hr o ho) h1
    · cases hm

theorem removeAnaphoricityRoot_gone {g : DG} (h : ¬ g.HasNode (.str "anaphoricity:root_node")) : removeAnaphoricityRoot g = .error .name := by
  unfold removeAnaphoricityRoot DG.removeNode
  have : ¬ (has g.nodes (.str "anaphoricity:root_node")) = true := by
    intro hh
    rw [DG.hasNode_iff'] at h
    obtain ⟨a, ha⟩ := (mem_keys_iff _ _).1 ((has_iff _ _).1 hh)
    exact h ⟨a, ha⟩
  rw [if_neg this]

/-- **C74 is violated** (anaphoricity): whatever else is given, no document with an anaphoricity file is ever built -/
theorem c74_fails_anaphoricity {α : Type} (env : CliEnv α) {a : CliArgs} {p : String} (hg : a.Given .anaphoricity p)
    (hr : ∀ o, env.read .anaphoricity p = .ok o → DG.Inv o ∧ o.root = .str "anaphoricity:root_node") : ∃ e, mergingCli env a = .error e := by
  have key : ∃ e, cliGraph env a = .error e := by
    cases hc : cliGraph env a with
    | error e => exact ⟨e, rfl⟩
    | ok g =>
      exfalso
      unfold cliGraph at hc
      split at hc
      · simp only [bind, Except.bind, (path_some a _ p).2 hg, Option.isSome_some, if_true] at hc
        split at hc
        · cases hc
        · split at hc
          · cases hc
          · split at hc
            · cases hc
            · rename_i g3 h3
              obtain ⟨o, ho, hgone⟩ := mergeFile_gone hg (fun o ho => (hr o ho).1) h3
              rw [(hr o ho).2] at hgone
              rw [removeAnaphoricityRoot_gone hgone] at hc
              cases hc
      · cases hc
  obtain ⟨e, he⟩ := key
  exact ⟨e, c74_graph_error env he⟩

/-- **C74 is violated** (anaphoricity): a correct anaphoricity file alone leads to NameError -/
theorem c74_fails_anaphoricity_alone {α : Type} (env : CliEnv α) {a : CliArgs} {p : String} (hg : a.Given .anaphoricity p) (hn : ∀ k, k ≠ .anaphoricity → a.NotGiven k) (hex : env.isFile p = true) {o : DG} (hread : env.read .anaphoricity p = .ok o)
    (hroot : o.root = .str "anaphoricity:root_node") {strs : List String} (hne : strs ≠ []) (hl : DG.Layer strs o) (h1 : ¬ o.HasNode (.str "discoursegraph:root_node")) (h2 : ∀ n, o.nodeAttr n "discoursegraph:token" = none)
    (hs : (env.sched .anaphoricity).Valid []) : mergingCli env a = .error .name := by
  refine c74_graph_error env ?_
  obtain ⟨g', m1, -⟩ := emptyMerge (layers := []) hne hl hs (by intro q hq; rw [List.mem_singleton.1 hq]; exact ⟨h1, h2⟩) (by simp) (by simp)
  have hm : (DG.init "" "discoursegraph" none).mergeGraphs o (env.sched .anaphoricity) = (g', none) := by
    unfold DG.mergeAll at m1
    split at m1
    · rename_i g1 h; rw [h]; exact m1
    · simp at m1
  have hm' : mergeFile env a .anaphoricity (DG.init "" "discoursegraph" none) = .ok g' := by rw [mergeFile_take hg hread, hm]
  have hgone : ¬ g'.HasNode (.str "anaphoricity:root_node") := hroot ▸ mergeGraphs_gone hl.sound hm
  unfold cliGraph
  rw [if_pos ((filesExist_iff env a).2 (by
    intro k q hk hq
    by_cases hka : k = .anaphoricity
    · subst hka
      have : q = p := by
        have := hg.1.symm.trans hq.1
        simpa using this.symm
      rw [this]; exact hex
    · have h3 := (path_none a k).2 (hn k hka)
      rw [(path_some a k q).2 hq] at h3
      cases h3))]
  simp only [mergeFile_skip (hn .tiger (by simp)), mergeFile_skip (hn .rst (by simp)), hm', (path_some a _ p).2 hg, Option.isSome_some, if_true, removeAnaphoricityRoot_gone hgone, bind, Except.bind]

/-! ### the hypotheses are met -/

def cliArgs : CliArgs := ⟨fun | .tiger => some "a.xml" | .conano => some "b.xml" | .mmax => some "c.mmax" | .rst => some "" | .anaphoricity => none, "neo4j", some "out"⟩
def cliEnv : CliEnv String := ⟨fun p => p ≠ "x.txt", fun | .tiger, _ => .ok pccA | .conano, _ => .ok pccB | .mmax, _ => .ok pccC | _, _ => .error .io,
  fun | .tiger => ⟨some [], []⟩ | .conano => DG.mergeSched | _ => mergeSchedC, fun _ p _ => .ok ("written to " ++ p.getD "-")⟩

theorem cliFiles : cliArgs.FilesAre [(.tiger, "a.xml"), (.conano, "b.xml"), (.mmax, "c.mmax")] := by
  refine ⟨by decide, ?_⟩
  intro k p
  cases k <;> simp [CliArgs.Given, cliArgs]
  all_goals first
    | (constructor
       · rintro rfl; exact ⟨rfl, by decide⟩
       · rintro ⟨rfl, -⟩; rfl)
    | skip

theorem emptyValid : (⟨some [], []⟩ : DG.Sched).Valid [] := by
  refine ⟨?_, List.Perm.refl _⟩
  unfold DG.RelabelOrder
  rw [if_neg (by rintro ⟨x, hx, -⟩; cases hx)]
  exact ⟨[], rfl, List.Perm.refl _⟩

theorem pccNoToken {o : DG} (h : (o.nodes.all (fun p => (find p.2 "discoursegraph:token").isNone)) = true) (n : NodeId) : o.nodeAttr n "discoursegraph:token" = none := by
  cases hn : o.nodeAttrs n with
  | none => simp [DG.nodeAttr, hn]
  | some a =>
    have := List.all_eq_true.1 h _ (find_some_mem (show find o.nodes n = some a from hn))
    simpa [DG.nodeAttr, hn] using this

/-- syntax, connectives and coreference of the text "x y" are merged and written -/
example : ∃ g', cliGraph cliEnv cliArgs = .ok g' ∧ mergingCli cliEnv cliArgs = .ok (some "written to out") ∧ DG.LayerIn [pccB, pccC] pccA g' ∧ g'.edges.length = 6 := by
  obtain ⟨g', h1, -, -, h4, -, h6, -⟩ := c74_merges_partial cliEnv (a := cliArgs) (.inl rfl) cliFiles (by
      intro k p h _
      simp only [List.mem_cons, Prod.mk.injEq, List.not_mem_nil, or_false] at h
      rcases h with ⟨rfl, rfl⟩ | ⟨rfl, rfl⟩ | ⟨rfl, rfl⟩ <;> decide)
    (graph := fun f => match f.1 with | .tiger => pccA | .conano => pccB | _ => pccC)
    (by
      intro f h
      simp only [List.mem_cons, List.not_mem_nil, or_false] at h
      rcases h with rfl | rfl | rfl <;> rfl)
    (strs := ["x", "y"]) (by simp)
    (by
      intro f h
      simp only [List.mem_cons, List.not_mem_nil, or_false] at h
      rcases h with rfl | rfl | rfl
      · exact ⟨pccDocA.1, by decide +kernel, pccNoToken (o := pccA) (by decide +kernel)⟩
      · exact ⟨pccDocB.1, by decide +kernel, pccNoToken (o := pccB) (by decide +kernel)⟩
      · exact ⟨pccDocC.1, by decide +kernel, pccNoToken (o := pccC) (by decide +kernel)⟩)
    (by
      intro f h
      simp only [List.mem_cons, List.not_mem_nil, or_false] at h
      rcases h with rfl | rfl
      · exact pccApart (o := pccB) (by decide +kernel) (by decide +kernel) (by decide +kernel) (by decide +kernel)
      · exact pccApart (o := pccC) (by decide +kernel) (by decide +kernel) (by decide +kernel) (by decide +kernel))
    (by
      simp only [List.pairwise_cons, List.mem_cons, List.not_mem_nil, or_false, forall_eq_or_imp, forall_eq, false_imp_iff, implies_true, and_true, List.Pairwise.nil]
      exact ⟨⟨⟨by decide +kernel, by decide +kernel⟩, by decide +kernel, by decide +kernel⟩, by decide +kernel, by decide +kernel⟩)
    (by
      refine ⟨emptyValid, ?_⟩
      intro f h
      simp only [List.mem_cons, List.not_mem_nil, or_false] at h
      rcases h with rfl | rfl
      · exact pccValidB
      · exact pccValidC)
  refine ⟨g', h1, ?_, h4 [] _ _ rfl, ?_⟩
  · rw [c74_output cliEnv (w := .geoff) .neo4j h1 (by simp)]; rfl
  · rw [h6]
    show pccA.edges.length + (pccB.edges.length + (pccC.edges.length + 0)) = 6
    rw [show pccA.edges.length = 2 by decide +kernel, show pccB.edges.length = 2 by decide +kernel, show pccC.edges.length = 2 by decide +kernel]

/-- the hypotheses of the other theorems are met -/
example : ∀ k, (⟨fun _ => none, "dot", none⟩ : CliArgs).NotGiven k := fun _ => .inl rfl
example : mergingCli cliEnv ⟨fun k => if k = .conano then some "x.txt" else none, "dot", none⟩ = .error .assertion :=
  c74_missing_file cliEnv (k := .conano) (p := "x.txt") ⟨rfl, by decide⟩ (by decide) (by decide)
example : mergingCli cliEnv ⟨fun _ => none, "svg", none⟩ = .error .value :=
  c74_fails_format cliEnv (by intro w h; have := (cliWriter_iff _ _).2 h; revert this; cases w <;> decide) (by decide) (c74_no_files cliEnv (fun _ => .inl rfl))


/-- an annotation of anaphoricity of the text "x y" -/
def anaDoc : DG := DG.mergeDoc "anaphoricity" "anaphoricity:root_node" "a1" "a2" "as"
theorem anaDocLayer : DG.Layer ["x", "y"] anaDoc :=
  (pccDoc _ _ _ _ _ (DG.Reachable.inv ⟨"", "anaphoricity", some (.str "anaphoricity:root_node"), _, by decide, rfl⟩) (by decide +kernel) (by decide +kernel) (show _ = _ by decide +kernel) (show _ = _ by decide +kernel) (by decide) (by decide +kernel) (by decide +kernel) (by decide +kernel) (by decide +kernel)).1
example : mergingCli (⟨fun _ => true, fun _ _ => .ok anaDoc, fun _ => ⟨some [], []⟩, fun _ _ _ => .ok ()⟩ : CliEnv Unit) ⟨fun k => if k = .anaphoricity then some "f" else none, "no-output", none⟩ = .error .name :=
  c74_fails_anaphoricity_alone _ (p := "f") ⟨rfl, by decide⟩ (by intro k hk; exact .inl (if_neg hk)) rfl rfl (show anaDoc.root = _ by decide +kernel) (by simp) anaDocLayer (by decide +kernel) (pccNoToken (o := anaDoc) (by decide +kernel)) emptyValid

end Dg
