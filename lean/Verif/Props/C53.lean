import Verif.Lemmas.ConllGraph
import Batteries.Lean.Except

/-! C53: the CoNLL reader. -/

namespace Dg
open Dict
namespace DG

theorem inv_conllStart (name ns : String) : Inv (conllStart name ns) ∧ NodesLayered False (conllStart name ns) := by
  have h := inv_init "" "discoursegraph" none
  have h2 := nodesLayered_init False "" "discoursegraph" none
  exact ⟨⟨⟨h.wf.nodesNodup, h.wf.adjKeys, h.wf.nbrsNodup, h.wf.kdNodup, h.wf.kdNonempty, h.wf.target⟩, ⟨h.attrs.1, h.attrs.2⟩, h.edges⟩, h2⟩

theorem conllStart_nodes (name ns : String) (m : NodeId) : (conllStart name ns).HasNode m ↔ m = .str "discoursegraph:root_node" := by
  constructor
  · intro h
    have : m ∈ [NodeId.str "discoursegraph:root_node"] := h
    simpa using this
  · rintro rfl
    show NodeId.str "discoursegraph:root_node" ∈ [NodeId.str "discoursegraph:root_node"]
    simp

theorem conllStart_edges (name ns : String) (u v : NodeId) : (conllStart name ns).kd? u v = none := by
  show (find [(NodeId.str "discoursegraph:root_node", ([] : Dict NodeId (Dict Key Attrs)))] u).bind _ = none
  unfold find
  split <;> rfl

theorem conllStart_noEdge (name ns : String) (u v : NodeId) (a : Attrs) : ¬ (conllStart name ns).EdgeWith u v a := by
  rintro ⟨k, h⟩
  unfold edgeAttrs at h
  rw [conllStart_edges] at h
  cases h

theorem colon_root {ns : String} {s : List Char} (h : NodeId.str (String.ofList s) = .str (ns ++ ":root_node")) : ':' ∈ s := by
  injection h with h
  have h := congrArg String.toList h
  rw [String.toList_ofList] at h
  rw [h, String.toList_append]
  exact List.mem_append_right _ (by decide)

theorem colon_base {s : List Char} (h : NodeId.str (String.ofList s) = .str "discoursegraph:root_node") : ':' ∈ s :=
  colon_root (ns := "discoursegraph") h

theorem colon_sentNode (i : Nat) : ':' ∉ 's' :: decimal i := by
  intro h
  rcases List.mem_cons.1 h with e | h
  · cases e
  · exact absurd (decimal_digits i _ h) (by decide)

theorem colon_wordNode (i : Nat) {a : List Char} (ha : ':' ∉ a) : ':' ∉ 's' :: (decimal i ++ '_' :: 't' :: a) := by
  intro h
  rcases List.mem_cons.1 h with e | h
  · cases e
  · rcases List.mem_append.1 h with h | h
    · exact absurd (decimal_digits i _ h) (by decide)
    · rcases List.mem_cons.1 h with e | h
      · cases e
      · rcases List.mem_cons.1 h with e | h
        · cases e
        · exact ha h

theorem colon_number {a : List Char} {i : Int} (h : pyInt a = some i) : ':' ∉ a := by
  intro hc
  rcases (pyInt_chars h).2 _ hc with e | e | e | e <;> exact absurd e (by decide)

/-- the script of the whole file makes the graph -/
theorem conllGraph_of_built {ns name : String} {xss : List (List CoWord)} {g : DG} (hids : ∀ xs ∈ xss, (xs.map CoWord.id).Nodup) (hnum : ∀ xs ∈ xss, ∀ x ∈ xs, ∃ i, pyInt x.id = some i)
    (hb : Built (conllStart name ns) (.node (.str (ns ++ ":root_node")) [ns] [] :: sentsScript ns (.str (ns ++ ":root_node")) 1 [.str (ns ++ ":root_node"), .str "discoursegraph:root_node"] xss) g) : ConllGraph ns xss g := by
  have hmem : ∀ {I : Instr}, I ∈ (.node (.str (ns ++ ":root_node")) [ns] [] :: sentsScript ns (.str (ns ++ ":root_node")) 1 [.str (ns ++ ":root_node"), .str "discoursegraph:root_node"] xss : List Instr) → I = .node (.str (ns ++ ":root_node")) [ns] [] ∨
      ∃ (k : Nat) (xs : List CoWord), xss[k]? = some xs ∧ (I ∈ sentScript ns (.str (ns ++ ":root_node")) (k + 1) ∨ ∃ x ∈ xs, WordCall ns (k + 1) x I) := by
    intro I hI
    rcases List.mem_cons.1 hI with h | h
    · exact .inl h
    · obtain ⟨k, xs, h1, h2⟩ := mem_sentsScript h
      rw [Nat.add_comm 1 k] at h2
      exact .inr ⟨k, xs, h1, h2⟩
  have hin : ∀ {k : Nat} {xs : List CoWord}, xss[k]? = some xs → (∀ I ∈ sentScript ns (.str (ns ++ ":root_node")) (k + 1), I ∈ sentsScript ns (.str (ns ++ ":root_node")) 1 [.str (ns ++ ":root_node"), .str "discoursegraph:root_node"] xss) ∧
      ∃ seen', (∀ I ∈ wordsScript ns (k + 1) [] (sentNode (k + 1) :: seen') xs, I ∈ sentsScript ns (.str (ns ++ ":root_node")) 1 [.str (ns ++ ":root_node"), .str "discoursegraph:root_node"] xss) ∧
        ∀ m ∈ seen', m ∈ [NodeId.str (ns ++ ":root_node"), .str "discoursegraph:root_node"] ∨ ∃ j < k, ∃ ys, xss[j]? = some ys ∧ m ∈ sentNodes (j + 1) ys := by
    intro k xs hk
    have := sentsScript_mem (ns := ns) (r := .str (ns ++ ":root_node")) (i := 1) (seen := [.str (ns ++ ":root_node"), .str "discoursegraph:root_node"]) hk
    simpa only [Nat.add_comm 1] using this
  have hcolonWord : ∀ {k : Nat} {xs : List CoWord} {x : CoWord}, xss[k]? = some xs → x ∈ xs → ':' ∉ 's' :: (decimal (k + 1) ++ '_' :: 't' :: x.id) := by
    intro k xs x hk hx
    obtain ⟨i, hi⟩ := hnum xs (List.mem_of_getElem? hk) x hx
    exact colon_wordNode _ (colon_number hi)
  refine ⟨?_, ?_, ?_, ?_, ?_, ?_, ?_, ?_, ?_, ?_⟩
  · rw [hb.tokens, List.flatMap_cons, sentsScript_tokens]; rfl
  · rw [hb.sentences, List.flatMap_cons, sentsScript_sentences]; rfl
  · intro k xs hk
    have hnew : ¬ (conllStart name ns).HasNode (sentNode (k + 1)) := by
      rw [conllStart_nodes]
      exact fun e => colon_sentNode _ (colon_base e)
    have hnode : ∀ ls at', Instr.node (sentNode (k + 1)) ls at' ∈ (.node (.str (ns ++ ":root_node")) [ns] [] :: sentsScript ns (.str (ns ++ ":root_node")) 1 [.str (ns ++ ":root_node"), .str "discoursegraph:root_node"] xss : List Instr) →
        ls = [ns, qual ns "sentence"] ∧ at' = [("tokens", .list [])] := by
      intro ls at' h
      rcases hmem h with h | ⟨j, ys, _, h | ⟨x, hx, h⟩⟩
      · injection h with h
        exact absurd (colon_root h) (colon_sentNode _)
      · simp only [sentScript, List.mem_cons, List.not_mem_nil, or_false] at h
        rcases h with h | h | h
        · injection h with _ h1 h2
          exact ⟨h1, h2⟩
        · cases h
        · cases h
      · generalize hm : sentNode (k + 1) = m at h
        cases h with
        | word => exact absurd hm (sentNode_ne_wordNode _ _ _)
        | head => exact absurd hm (sentNode_ne_wordNode _ _ _)
    constructor
    · intro key hkey
      rw [hb.attr _ _ hkey]
      have hold : (conllStart name ns).nodeAttr (sentNode (k + 1)) key = none := by
        have : (conllStart name ns).nodeAttrs (sentNode (k + 1)) = none := by
          cases he : (conllStart name ns).nodeAttrs (sentNode (k + 1)) with
          | none => rfl
          | some a => exact absurd ((hasNode_some _ _).2 ⟨a, he⟩) hnew
        unfold nodeAttr; rw [this]; rfl
      rw [hold, Option.or_none, lastWrite]
      by_cases ht : key = "tokens"
      · subst ht
        have := sentsScript_lastWrite (ns := ns) (r := .str (ns ++ ":root_node")) (i := 1) (seen := [.str (ns ++ ":root_node"), .str "discoursegraph:root_node"]) hk
        rw [Nat.add_comm 1 k] at this
        rw [this]
        simp [find]
      · have h1 : lastWrite (sentNode (k + 1)) key (sentsScript ns (.str (ns ++ ":root_node")) 1 [.str (ns ++ ":root_node"), .str "discoursegraph:root_node"] xss) = none := by
          apply lastWrite_none
          intro I hI
          cases I with
          | node n ls at' =>
            simp only [Instr.write]
            split
            · next e =>
              subst e
              rw [(hnode ls at' (List.mem_cons_of_mem _ hI)).2]
              simp [find, Ne.symm ht]
            · rfl
          | attr n k' v =>
            simp only [Instr.write]
            rw [if_neg]
            rintro ⟨_, rfl⟩
            rcases hmem (List.mem_cons_of_mem _ hI) with h | ⟨j, ys, _, h | ⟨x, hx, h⟩⟩
            · cases h
            · simp [sentScript] at h
            · cases h
              exact ht rfl
          | edge => rfl
          | token => rfl
          | sentence => rfl
        rw [h1]
        simp [Instr.write, find, Ne.symm ht]
    · intro l
      rw [hb.layer]
      constructor
      · rintro (⟨a, ha, _⟩ | ⟨I, hI, hl⟩ | ⟨_, _, rfl⟩)
        · exact absurd ((hasNode_some _ _).2 ⟨a, ha⟩) hnew
        · cases I with
          | node n ls at' =>
            obtain ⟨rfl, hl⟩ := hl
            rw [← (hnode ls at' hI).1]
            exact hl
          | edge => exact hl.elim
          | attr => exact hl.elim
          | token => exact hl.elim
          | sentence => exact hl.elim
        · show Atom.str ns ∈ _
          simp
      · intro hl
        exact .inr (.inl ⟨_, List.mem_cons_of_mem _ ((hin hk).1 (.node (sentNode (k + 1)) [ns, qual ns "sentence"] [("tokens", .list [])]) (by simp [sentScript])), rfl, hl⟩)
  · intro k xs x hk hx
    obtain ⟨_, seen', h2, _⟩ := hin hk
    refine hb.single' ?_ (List.mem_cons_of_mem _ (h2 _ (wordsScript_mem hx).1)) ?_ ?_ (by show ns ∈ _; simp)
    · rw [conllStart_nodes]
      exact fun e => hcolonWord hk hx (colon_base e)
    · intro ls2 at2 h
      rcases hmem h with h | ⟨j, ys, hj, h | ⟨y, hy, h⟩⟩
      · injection h with h
        exact absurd (colon_root h) (hcolonWord hk hx)
      · simp only [sentScript, List.mem_cons, List.not_mem_nil, or_false] at h
        rcases h with h | h | h
        · injection h with h
          exact absurd h.symm (sentNode_ne_wordNode _ _ _)
        · cases h
        · cases h
      · generalize hm : wordNode (k + 1) x.id = m at h
        cases h with
        | word =>
          obtain ⟨e1, e2⟩ := wordNode_inj hm
          obtain rfl : k = j := by omega
          rw [hk] at hj
          obtain rfl := Option.some.inj hj
          obtain rfl : x = y := List.inj_on_of_nodup_map (hids xs (List.mem_of_getElem? hk)) hx hy e2
          exact .inl ⟨rfl, rfl⟩
        | head =>
          exact .inr ⟨rfl, by simp⟩
    · intro key v h
      rcases hmem h with h | ⟨j, ys, hj, h | ⟨y, hy, h⟩⟩
      · cases h
      · simp [sentScript] at h
      · generalize hm : wordNode (k + 1) x.id = m at h
        cases h
        exact sentNode_ne_wordNode _ _ _ hm.symm
  · intro k xs x hk hx h0 hno hroot
    obtain ⟨_, seen', h2, h3⟩ := hin hk
    have hbase : wordNode (k + 1) x.head ≠ .str "discoursegraph:root_node" := by
      intro e
      unfold wordNode at e
      injection e with e
      have e := congrArg String.toList e
      rw [String.toList_ofList] at e
      injection e with e _
      exact absurd e (by decide)
    refine hb.single ?_ (List.mem_cons_of_mem _ (h2 _ (wordsScript_head ⟨x, hx, rfl⟩ h0 hno ?_ (by simp)))) ?_ ?_ (by show ns ∈ _; simp)
    · rw [conllStart_nodes]
      exact hbase
    · intro hm
      rcases List.mem_cons.1 hm with e | hm
      · exact sentNode_ne_wordNode _ _ _ e.symm
      · rcases h3 _ hm with h | ⟨j, hj, ys, _, hm⟩
        · have h : wordNode (k + 1) x.head = .str (ns ++ ":root_node") ∨ wordNode (k + 1) x.head = .str "discoursegraph:root_node" := by simpa using h
          exact h.elim hroot hbase
        · exact sentNodes_not_word (by omega) hm
    · intro ls2 at2 h
      rcases hmem h with h | ⟨j, ys, hj, h | ⟨y, hy, h⟩⟩
      · injection h with h
        exact absurd h hroot
      · simp only [sentScript, List.mem_cons, List.not_mem_nil, or_false] at h
        rcases h with h | h | h
        · injection h with h
          exact absurd h.symm (sentNode_ne_wordNode _ _ _)
        · cases h
        · cases h
      · generalize hm : wordNode (k + 1) x.head = m at h
        cases h with
        | word =>
          obtain ⟨e1, e2⟩ := wordNode_inj hm
          obtain rfl : k = j := by omega
          rw [hk] at hj
          obtain rfl := Option.some.inj hj
          exact absurd e2.symm (hno y hy)
        | head => exact ⟨rfl, rfl⟩
    · intro key v h
      rcases hmem h with h | ⟨j, ys, hj, h | ⟨y, hy, h⟩⟩
      · cases h
      · simp [sentScript] at h
      · generalize hm : wordNode (k + 1) x.head = m at h
        cases h
        exact sentNode_ne_wordNode _ _ _ hm.symm
  · intro m
    rw [hb.nodes, conllStart_nodes]
    refine or_congr Iff.rfl ?_
    constructor
    · rintro ⟨I, hI, hm⟩
      rcases hmem hI with rfl | ⟨k, xs, hk, h | ⟨x, hx, h⟩⟩
      · exact .inl hm
      · simp only [sentScript, List.mem_cons, List.not_mem_nil, or_false] at h
        rcases h with rfl | rfl | rfl
        · exact .inr ⟨k, xs, hk, .inl hm⟩
        · rcases hm with hm | hm
          · exact .inl hm
          · exact .inr ⟨k, xs, hk, .inl hm⟩
        · exact hm.elim
      · cases h with
        | word => exact .inr ⟨k, xs, hk, .inr ⟨x, hx, .inl hm⟩⟩
        | token => exact hm.elim
        | list => exact hm.elim
        | head h0 => exact .inr ⟨k, xs, hk, .inr ⟨x, hx, .inr (by unfold headNode; rw [if_neg h0]; exact hm)⟩⟩
        | edge =>
          rcases hm with hm | hm
          · exact .inr ⟨k, xs, hk, .inr ⟨x, hx, .inr hm⟩⟩
          · exact .inr ⟨k, xs, hk, .inr ⟨x, hx, .inl hm⟩⟩
    · rintro (rfl | ⟨k, xs, hk, rfl | ⟨x, hx, h⟩⟩)
      · exact ⟨_, List.mem_cons_self, rfl⟩
      · exact ⟨_, List.mem_cons_of_mem _ ((hin hk).1 (.node (sentNode (k + 1)) [ns, qual ns "sentence"] [("tokens", .list [])]) (by simp [sentScript])), rfl⟩
      · obtain ⟨_, seen', h2, _⟩ := hin hk
        exact ⟨_, List.mem_cons_of_mem _ (h2 _ (wordsScript_mem hx).2), h.symm⟩
  · intro k xs hk
    exact hb.edgeNew _ _ _ _ (List.mem_cons_of_mem _ ((hin hk).1 _ (by simp [sentScript, edgeType])))
  · intro k xs x hk hx
    obtain ⟨_, seen', h2, _⟩ := hin hk
    exact hb.edgeNew _ _ _ _ (List.mem_cons_of_mem _ (h2 _ (wordsScript_mem hx).2))
  · intro u v a h
    rcases hb.edgeOf u v a h with h | ⟨ls, at', h, _⟩
    · exact absurd h (conllStart_noEdge _ _ _ _ _)
    · rcases hmem h with h | ⟨k, xs, hk, h | ⟨x, hx, h⟩⟩
      · cases h
      · refine ⟨k, xs, hk, .inl ?_⟩
        simp only [sentScript, List.mem_cons, List.not_mem_nil, or_false] at h
        rcases h with h | h | h
        · cases h
        · injection h with h1 h2
          exact ⟨h1, h2⟩
        · cases h
      · refine ⟨k, xs, hk, .inr ⟨x, hx, ?_⟩⟩
        cases h
        exact ⟨rfl, rfl⟩
  · intro u v
    rw [hb.count, countP_edgesOf]
    have h0 : (conllStart name ns).edgeCount u v = 0 := by
      unfold edgeCount
      rw [conllStart_edges]
      rfl
    rw [h0, Nat.zero_add]
    have e : edgesOf (.node (.str (ns ++ ":root_node")) [ns] [] :: sentsScript ns (.str (ns ++ ":root_node")) 1 [.str (ns ++ ":root_node"), .str "discoursegraph:root_node"] xss) =
        edgesOf (sentsScript ns (.str (ns ++ ":root_node")) 1 [.str (ns ++ ":root_node"), .str "discoursegraph:root_node"] xss) := rfl
    rw [e]
    have hnd := sentsScript_targets (ns := ns) (r := .str (ns ++ ":root_node")) hids 1 [.str (ns ++ ":root_node"), .str "discoursegraph:root_node"]
    exact List.nodup_iff_count_le_one.1 (List.Nodup.of_map _ hnd) (u, v)

theorem find_zip {cols : List String} {fs : List (List Char)} (h : cols.length ≤ fs.length) {c : String} (hc : c ∈ cols) : ∃ v, find (cols.zip fs) c = some v := by
  induction cols generalizing fs with
  | nil => cases hc
  | cons d cols ih =>
    cases fs with
    | nil => simp at h
    | cons f fs =>
      rw [List.zip_cons_cons]
      unfold find
      split
      · exact ⟨f, rfl⟩
      · next hne =>
        rcases List.mem_cons.1 hc with rfl | hc
        · exact absurd rfl hne
        · exact ih (by simpa using h) hc

theorem mem_conllWords {cols : List String} {w : Dict String (List Char)} : ∀ {ls : List ConllLine}, w ∈ conllWords cols ls ↔ ∃ fs, ConllLine.word fs ∈ ls ∧ w = cols.zip fs
  | [] => by simp [conllWords]
  | .comment c :: ls => by
    rw [conllWords, mem_conllWords]
    simp
  | .word fs :: ls => by
    rw [conllWords, List.mem_cons, mem_conllWords]
    constructor
    · rintro (rfl | ⟨fs', h, rfl⟩)
      · exact ⟨fs, by simp, rfl⟩
      · exact ⟨fs', by simp [h], rfl⟩
    · rintro ⟨fs', h, rfl⟩
      rcases List.mem_cons.1 h with e | h
      · injection e with e
        exact .inl (by rw [e])
      · exact .inr ⟨fs', h, rfl⟩

theorem columns_cases (cfg : ConllCfg) : cfg.columns = conll2009Columns ∨ cfg.columns = conll2010Columns := by
  unfold ConllCfg.columns
  cases cfg.new
  · exact .inl rfl
  · exact .inr rfl

theorem word_of_columns {cfg : ConllCfg} (hcols : cfg.headAttr ∈ cfg.columns ∧ cfg.deprelAttr ∈ cfg.columns ∧ cfg.featAttr ∈ cfg.columns) {fs : List (List Char)} (hok : (ConllLine.word fs).Ok cfg.new)
    {n : List Char} {i : Int} (hn : find (cfg.columns.zip fs) "word_id" = some n) (hi : pyInt n = some i) : ∃ x, Resolved cfg (cfg.columns.zip fs) x ∧ WordIs cfg (cfg.columns.zip fs) x ∧ x.id = n := by
  have hlen : cfg.columns.length ≤ fs.length := by
    rw [columns_length]
    have := hok.2
    split at this <;> rename_i h
    · rw [if_pos h]; omega
    · rw [if_neg h]; omega
  obtain ⟨h, hh⟩ := find_zip hlen hcols.1
  obtain ⟨r, hr⟩ := find_zip hlen hcols.2.1
  obtain ⟨f, hf⟩ := find_zip hlen hcols.2.2
  obtain ⟨t, ht⟩ := find_zip (c := "token") hlen (by rcases columns_cases cfg with e | e <;> rw [e] <;> decide)
  obtain ⟨a, ha1, ha2, ha3⟩ := conllFeats_spec (cfg := cfg) (columnNames_zip (columns_cases cfg) fs) ht hn hi hf
  exact ⟨⟨n, h, r, a⟩, ⟨hn, hh, hr, ha1, ha3⟩, ⟨hn, ⟨i, hi⟩, hh, hr, f, hf, ha2, ha3⟩, rfl⟩

theorem numbered_of {cfg : ConllCfg} {fs : List (List Char)} (hok : (ConllLine.word fs).Ok cfg.new) {n : List Char} {i : Int} (hn : find (cfg.columns.zip fs) "word_id" = some n) (hi : pyInt n = some i) : (ConllLine.word fs).Numbered := by
  cases fs with
  | nil => rcases columns_cases cfg with e | e <;> rw [e] at hn <;> cases hn
  | cons f fs =>
    refine ⟨f, fs, i, rfl, ?_⟩
    have : find (cfg.columns.zip (f :: fs)) "word_id" = some f := by
      rcases columns_cases cfg with e | e <;> rw [e] <;> rfl
    rw [this] at hn
    obtain rfl := Option.some.inj hn
    exact hi

theorem forall₂_exists {α β : Type} {R : α → β → Prop} {xs : List α} (h : ∀ x ∈ xs, ∃ y, R x y) : ∃ ys, List.Forall₂ R xs ys := by
  induction xs with
  | nil => exact ⟨[], .nil⟩
  | cons x xs ih =>
    obtain ⟨y, hy⟩ := h x (by simp)
    obtain ⟨ys, hys⟩ := ih (fun z hz => h z (List.mem_cons_of_mem _ hz))
    exact ⟨y :: ys, .cons hy hys⟩

/-- **C53** (reading).  Reading any file in the CoNLL format of 2009 or 2010 succeeds, if words are numbered, and with different numbers within a sentence.  The document contains exactly the sentences and words of the file, in
their order: each sentence node lists its tokens; each token has the columns of its word and its morphological features as attributes; the root dominates the sentences and each word is dominated, by one edge, by its head (by
its sentence, if the head is 0) with the relation given in the file.  Columns for head, relation and features are chosen by the caller. -/
theorem c53_read (cfg : ConllCfg) (name : String) (hcols : cfg.headAttr ∈ cfg.columns ∧ cfg.deprelAttr ∈ cfg.columns ∧ cfg.featAttr ∈ cfg.columns) {ss : List (List ConllLine)} {text : List Char}
    (hfile : ConllFile cfg.new ss text) (hnum : ∀ ls ∈ ss, ∀ w ∈ conllWords cfg.columns ls, ∃ n i, find w "word_id" = some n ∧ pyInt n = some i)
    (hids : ∀ ls ∈ ss, ((conllWords cfg.columns ls).map (fun w => find w "word_id")).Nodup) :
    ∃ g xss, conllRead cfg name text = .ok g ∧ Inv g ∧ g.name = name ∧ g.ns = cfg.ns ∧ List.Forall₂ (fun ls xs => List.Forall₂ (WordIs cfg) (conllWords cfg.columns ls) xs) ss xss ∧ ConllGraph cfg.ns xss g := by
  have hok : ∀ ls ∈ ss, ∀ l ∈ ls, l.Ok cfg.new := fun ls hls => (hfile.2.1 ls hls).2
  have hword : ∀ ls ∈ ss, ∀ w ∈ conllWords cfg.columns ls, ∃ x, Resolved cfg w x ∧ WordIs cfg w x := by
    intro ls hls w hw
    obtain ⟨n, i, hn, hi⟩ := hnum ls hls w hw
    obtain ⟨fs, hfs, rfl⟩ := mem_conllWords.1 hw
    obtain ⟨x, h1, h2, _⟩ := word_of_columns hcols (hok ls hls _ hfs) hn hi
    exact ⟨x, h1, h2⟩
  obtain ⟨xss, hxss⟩ := forall₂_exists (R := fun ls xs => List.Forall₂ (fun w x => Resolved cfg w x ∧ WordIs cfg w x) (conllWords cfg.columns ls) xs) (fun ls hls => forall₂_exists (hword ls hls))
  have hres : List.Forall₂ (List.Forall₂ (Resolved cfg)) (ss.map (conllWords cfg.columns)) xss := by
    rw [List.forall₂_map_left_iff]
    exact hxss.imp (fun _ _ h => h.imp (fun _ _ h => h.1))
  have hnumb : ∀ ls ∈ ss, ∀ l ∈ ls, l.Numbered := by
    intro ls hls l hl
    cases l with
    | comment => trivial
    | word fs =>
      obtain ⟨n, i, hn, hi⟩ := hnum ls hls _ (mem_conllWords.2 ⟨fs, hl, rfl⟩)
      exact numbered_of (hok ls hls _ hl) hn hi
  have hparse := conllFile_parses cfg hfile hnumb
  obtain ⟨hi0, hl0⟩ := inv_conllStart name cfg.ns
  obtain ⟨g1, e1, b1⟩ := exec_built hi0 hl0 (.node (.str (cfg.ns ++ ":root_node")) [cfg.ns] []) ⟨by simp, by simp [keys]⟩
  have hg1 : ReadState cfg.ns (.str (cfg.ns ++ ":root_node")) [.str (cfg.ns ++ ":root_node"), .str "discoursegraph:root_node"] g1 := by
    refine ⟨b1.inv, b1.layered, b1.ns, b1.root, ?_⟩
    intro m
    rw [b1.nodes, conllStart_nodes]
    simp [Instr.Mentions, or_comm]
  obtain ⟨e2, o2⟩ := conllSentences_eq hparse hres hg1 (i := 1) (by simp)
  obtain ⟨g, e3, b3⟩ := execs_built _ hg1.inv hg1.layered o2
  have hb := built_cons b1 b3
  refine ⟨g, xss, ?_, hb.inv, hb.name, hb.ns, hxss.imp (fun _ _ h => h.imp (fun _ _ h => h.2)), conllGraph_of_built ?_ ?_ hb⟩
  · unfold conllRead
    have : (conllStart name cfg.ns).addNode (conllStart name cfg.ns).root (.set [.str (conllStart name cfg.ns).ns]) .none [] = .ok g1 := e1
    simp only [this, bind, Except.bind]
    exact e2.trans e3
  · intro xs hxs
    obtain ⟨ls, hls, h⟩ := forall₂_mem_right hxss hxs
    have : xs.map (fun x => some x.id) = (conllWords cfg.columns ls).map (fun w => find w "word_id") := by
      generalize conllWords cfg.columns ls = ws at h
      clear hxs
      induction h with
      | nil => rfl
      | cons h1 _ ih => rw [List.map_cons, List.map_cons, ih, h1.1.id]
    have h2 := hids ls hls
    rw [← this] at h2
    have e : xs.map (fun x => some x.id) = (xs.map CoWord.id).map some := by rw [List.map_map]; rfl
    rw [e] at h2
    exact List.Nodup.of_map _ h2
  · intro xs hxs x hx
    obtain ⟨ls, hls, h⟩ := forall₂_mem_right hxss hxs
    obtain ⟨w, _, hw⟩ := forall₂_mem_right h hx
    exact hw.2.2.1

/-! ### files that are rejected -/

theorem foldlM_ok_step {α β : Type} {f : β → α → Except PyErr β} : ∀ {xs : List α} {b b' : β}, xs.foldlM f b = .ok b' → ∀ x ∈ xs, ∃ c c', f c x = .ok c'
  | [], _, _, _, _, h => by cases h
  | y :: xs, b, b', h, x, hx => by
    rw [List.foldlM_cons] at h
    cases hy : f b y with
    | error e => rw [hy] at h; cases h
    | ok c =>
      rw [hy] at h
      rcases List.mem_cons.1 hx with rfl | hx
      · exact ⟨b, c, hy⟩
      · exact foldlM_ok_step (show xs.foldlM f c = .ok b' from h) x hx

theorem conllSentences_ok {cfg : ConllCfg} : ∀ {ss : List (List Char)} {i : Nat} {g g' : DG}, conllAddSentences cfg i ss g = .ok g' → ∀ s ∈ ss, ∀ l ∈ splitChars '\n' s, ∃ j g1 g2, conllAddLine cfg j g1 l = .ok g2
  | [], _, _, _, _, _, h => by cases h
  | t :: ss, i, g, g', h, s, hs => by
    unfold conllAddSentences at h
    cases h1 : g.conllAddSentence i with
    | error e => rw [h1] at h; cases h
    | ok g1 =>
      rw [h1] at h
      change ((splitChars '\n' t).foldlM (conllAddLine cfg i) g1 >>= _) = _ at h
      cases h2 : (splitChars '\n' t).foldlM (conllAddLine cfg i) g1 with
      | error e => rw [h2] at h; cases h
      | ok g2 =>
        rw [h2] at h
        rcases List.mem_cons.1 hs with rfl | hs
        · intro l hl
          obtain ⟨c, c', hc⟩ := foldlM_ok_step h2 l hl
          exact ⟨i, c, c', hc⟩
        · exact conllSentences_ok (show conllAddSentences cfg (i + 1) ss g2 = .ok g' from h) s hs

/-- a line that can be read is a comment or has the right number of columns, the first of which is a number -/
theorem conllAddLine_ok {cfg : ConllCfg} {i : Nat} {g g' : DG} {l : List Char} (h : conllAddLine cfg i g l = .ok g') :
    l.head? = some '#' ∨ ((if cfg.new then (splitChars '\t' l).length = 17 else 14 ≤ (splitChars '\t' l).length) ∧ ∃ n i, (splitChars '\t' l).head? = some n ∧ pyInt n = some i) := by
  by_cases hc : l.head? = some '#'
  · exact .inl hc
  right
  unfold conllAddLine conllLine at h
  rw [if_neg hc] at h
  unfold makeWord at h
  have hcl := columns_length cfg
  by_cases hl : (if cfg.new = true then splitChars '\t' l else (splitChars '\t' l).take 14).length = cfg.columns.length
  · rw [if_pos hl] at h
    have hlen : if cfg.new then (splitChars '\t' l).length = 17 else 14 ≤ (splitChars '\t' l).length := by
      cases hn : cfg.new with
      | true =>
        rw [hn] at hcl hl
        simp only [if_true] at hcl hl ⊢
        omega
      | false =>
        rw [hn] at hcl hl
        simp only [Bool.false_eq_true, if_false, List.length_take] at hcl hl ⊢
        omega
    refine ⟨hlen, ?_⟩
    change conllAddWord cfg i g _ = _ at h
    unfold conllAddWord conllAddToken at h
    generalize hw : cfg.columns.zip (if cfg.new = true then splitChars '\t' l else (splitChars '\t' l).take 14) = w at h
    cases hid : find w "word_id" with
    | none =>
      unfold wordField at h
      rw [hid] at h
      cases h
    | some n =>
      have hwf : wordField w "word_id" = .ok n := by unfold wordField; rw [hid]
      rw [hwf] at h
      cases hf : conllFeats cfg w with
      | error e => rw [hf] at h; cases h
      | ok a =>
        have hint : ∃ j, pyInt n = some j := by
          unfold conllFeats at hf
          cases ht : wordField w "token" with
          | error e => rw [ht] at hf; cases hf
          | ok t =>
            rw [ht, hwf] at hf
            simp only [bind, Except.bind] at hf
            unfold intOrError at hf
            cases hp : pyInt n with
            | none => rw [hp] at hf; cases hf
            | some j => exact ⟨j, rfl⟩
        obtain ⟨j, hj⟩ := hint
        refine ⟨n, j, ?_, hj⟩
        have hhead : ∀ fs : List (List Char), find (cfg.columns.zip fs) "word_id" = fs.head? := by
          intro fs
          cases fs with
          | nil => rcases columns_cases cfg with e | e <;> rw [e] <;> rfl
          | cons f fs => rcases columns_cases cfg with e | e <;> rw [e] <;> rfl
        rw [← hw, hhead] at hid
        rw [← hid]
        split
        · rfl
        · rw [List.head?_take, if_neg (by decide)]
  · rw [if_neg hl] at h
    cases h

/-- **C53** (rejected files).  A file can be read only if each line between the first and the last non-blank character is an (empty line that separates two sentences or) a comment or a word with the right number of columns and
a number in the first column.  There are no other files that are silently accepted. -/
theorem c53_accepts_only (cfg : ConllCfg) (name : String) (text : List Char) (g : DG) (h : conllRead cfg name text = .ok g) :
    ∀ s ∈ splitBlank (stripUni text), ∀ l ∈ splitChars '\n' s,
      l.head? = some '#' ∨ ((if cfg.new then (splitChars '\t' l).length = 17 else 14 ≤ (splitChars '\t' l).length) ∧ ∃ n i, (splitChars '\t' l).head? = some n ∧ pyInt n = some i) := by
  intro s hs l hl
  unfold conllRead at h
  cases h1 : (conllStart name cfg.ns).addNode (conllStart name cfg.ns).root (.set [.str (conllStart name cfg.ns).ns]) .none [] with
  | error e => simp only [h1, bind, Except.bind] at h; cases h
  | ok g1 =>
    simp only [h1, bind, Except.bind] at h
    obtain ⟨j, g2, g3, h2⟩ := conllSentences_ok h s hs l hl
    exact conllAddLine_ok h2

/-- the pieces between the empty lines make up the text -/
theorem c53_blocks (text : List Char) : joinChars ['\n', '\n'] (splitBlank text) = text := by
  have key : ∀ (a : Char) (ps : List (List Char)), ps ≠ [] → joinChars ['\n', '\n'] (pushHead a ps) = a :: joinChars ['\n', '\n'] ps := by
    intro a ps h
    match ps, h with
    | [p], _ => rfl
    | p :: q :: ps, _ => simp [pushHead, joinChars]
  induction text using splitBlank.induct with
  | case1 => rfl
  | case2 c => rfl
  | case3 a b cs h ih =>
    obtain ⟨rfl, rfl⟩ := h
    rw [splitBlank, if_pos ⟨rfl, rfl⟩]
    have hne := splitBlank_ne cs
    cases hs : splitBlank cs with
    | nil => exact absurd hs hne
    | cons p ps =>
      rw [hs] at ih
      rw [joinChars, ih]
      rfl
  | case4 a b cs h ih =>
    rw [splitBlank, if_neg h, key _ _ (splitBlank_ne _), ih]

/-- **C53** (no sentences): an empty file, or one of white space only, cannot be read -/
theorem c53_fails_empty (cfg : ConllCfg) (name : String) (text : List Char) (h : ∀ c ∈ text, isUniSpace c = true) (g : DG) : conllRead cfg name text ≠ .ok g := by
  intro hr
  have hs : stripUni text = [] := by
    unfold stripUni
    have : text.dropWhile isUniSpace = [] := by
      have := dropWhile_all (p := isUniSpace) (a := text) (s := []) h (by simp)
      rwa [List.append_nil] at this
    rw [this]
    rfl
  have := c53_accepts_only cfg name text g hr [] (by rw [hs]; simp [splitBlank]) [] (by simp [splitChars])
  rcases this with h | ⟨h, _⟩
  · cases h
  · have e : (splitChars '\t' []).length = 1 := rfl
    rw [e] at h
    split at h <;> omega

/-! ### from a word to the root of its sentence -/

/-- the heads of a word: the word's head, the head of this one, ..., up to a word whose head is the sentence -/
inductive HeadPath (xs : List CoWord) : CoWord → List CoWord → Prop
  | root {x : CoWord} : x.head = ['0'] → HeadPath xs x []
  | head {x y : CoWord} {ys : List CoWord} : x.head ≠ ['0'] → y ∈ xs → x.head = y.id → HeadPath xs y ys → HeadPath xs x (y :: ys)

theorem nodeGet_eq {g : DG} {n : NodeId} (h : g.HasNode n) (k : String) : g.nodeGet n k = .ok (g.nodeAttr n k) := by
  obtain ⟨a, ha⟩ := (hasNode_some g n).1 h
  unfold nodeGet nodeAttr
  rw [ha]
  unfold nodeAttrs at ha
  rw [ha]
  rfl

theorem istoken_here {g : DG} {n : NodeId} (h : g.HasNode n) : g.istoken n none = .ok ((g.nodeAttr n (qual g.ns "token")).isSome) := by
  obtain ⟨a, ha⟩ := (hasNode_some g n).1 h
  unfold istoken nodeAttr
  rw [ha]
  unfold nodeAttrs at ha
  rw [ha]
  rfl

/-- **C53** (dependencies).  From a word, `traverse_dependencies_up` yields the value of the given column for the heads of the word, one after the other, up to the root of the sentence (except empty values). -/
theorem c53_heads (cfg : ConllCfg) {xss : List (List CoWord)} {g : DG} (hi : Inv g) (hns : g.ns = cfg.ns) (hg : ConllGraph cfg.ns xss g) (hids : ∀ xs ∈ xss, (xs.map CoWord.id).Nodup)
    (hwords : ∀ xs ∈ xss, ∀ x ∈ xs, ∃ w t, find w "token" = some t ∧ WordIs cfg w x) {col : String} (hcol : col ∈ cfg.columns) (val : CoWord → String) {k : Nat} {xs : List CoWord} (hk : xss[k]? = some xs)
    (hval : ∀ y ∈ xs, find y.attrs col = some (.atom (.str (val y)))) {x : CoWord} {ys : List CoWord} (hx : x ∈ xs) (hp : HeadPath xs x ys) (fuel : Nat) (hf : ys.length < fuel) :
    traverseUp col fuel g (wordNode (k + 1) x.id) = (((ys.map val).filter (· ≠ "")).map (fun s => .atom (.str s)), none) := by
  have hcolne : col ≠ "layers" ∧ col ≠ "sent_pos" ∧ col ≠ "tokens" := by
    have h1 : ∀ c ∈ conll2009Columns, c ≠ "layers" ∧ c ≠ "sent_pos" ∧ c ≠ "tokens" := by decide
    have h2 : ∀ c ∈ conll2010Columns, c ≠ "layers" ∧ c ≠ "sent_pos" ∧ c ≠ "tokens" := by decide
    rcases columns_cases cfg with e | e <;> rw [e] at hcol
    · exact h1 col hcol
    · exact h2 col hcol
  have hin : ∀ {x : CoWord}, x ∈ xs → ∃ e es, g.inEdges (wordNode (k + 1) x.id) = e :: es ∧ e.1 = headNode (k + 1) x := by
    intro x hx
    cases hes : g.inEdges (wordNode (k + 1) x.id) with
    | nil =>
      obtain ⟨a, ⟨key, ha⟩, _⟩ := hg.wordEdge k xs x hk hx
      have := (mem_edges_iff hi.wf _ _ key a).2 ha
      have hm : (headNode (k + 1) x, wordNode (k + 1) x.id, key, a) ∈ g.inEdges (wordNode (k + 1) x.id) := List.mem_filter.2 ⟨this, by simp⟩
      rw [hes] at hm
      cases hm
    | cons e es =>
      refine ⟨e, es, rfl, ?_⟩
      have hm : e ∈ g.inEdges (wordNode (k + 1) x.id) := by rw [hes]; simp
      obtain ⟨h1, h2⟩ := List.mem_filter.1 hm
      obtain ⟨u, v, key, a⟩ := e
      have hv : v = wordNode (k + 1) x.id := by simpa using h2
      subst hv
      have := (mem_edges_iff hi.wf _ _ key a).1 h1
      obtain ⟨j, zs, hj, ⟨_, h⟩ | ⟨z, hz, h3, h4⟩⟩ := hg.edges _ _ a ⟨key, this⟩
      · exact absurd h.symm (sentNode_ne_wordNode _ _ _)
      · obtain ⟨e1, e2⟩ := wordNode_inj h4
        obtain rfl : k = j := by omega
        rw [hk] at hj
        obtain rfl := Option.some.inj hj
        obtain rfl : x = z := List.inj_on_of_nodup_map (hids xs (List.mem_of_getElem? hk)) hx hz e2
        exact h3
  induction hp generalizing fuel with
  | @root x h0 =>
    obtain ⟨fuel, rfl⟩ : ∃ n, fuel = n + 1 := ⟨fuel - 1, by omega⟩
    obtain ⟨e, es, he, h1⟩ := hin hx
    have hh : headNode (k + 1) x = sentNode (k + 1) := by unfold headNode; rw [if_pos h0]
    have hnode : g.HasNode (sentNode (k + 1)) := (hg.nodes _).2 (.inr (.inr ⟨k, xs, hk, .inl rfl⟩))
    have hsent := (hg.sentence k xs hk).1
    unfold traverseUp
    rw [he]
    simp only [h1, hh]
    rw [nodeGet_eq hnode, istoken_here hnode, hsent col hcolne.1, hns, hsent _ (qual_layers _ _)]
    have e1 : find [("tokens", Val.list (xs.map (fun x => tokenAtom (wordNode (k + 1) x.id))))] col = none := by
      simp [find, Ne.symm hcolne.2.2]
    have e2 : find [("tokens", Val.list (xs.map (fun x => tokenAtom (wordNode (k + 1) x.id))))] (qual cfg.ns "token") = none := by
      have : "tokens" ≠ qual cfg.ns "token" := fun e => qual_ne_plain (b := "tokens") (by decide) e.symm
      simp [find, this]
    rw [e1, e2]
    rfl
  | @head x y ys h0 hy hh hp ih =>
    obtain ⟨fuel, rfl⟩ : ∃ n, fuel = n + 1 := ⟨fuel - 1, by simp only [List.length_cons] at hf; omega⟩
    have ih := ih hy fuel (by simpa using hf)
    obtain ⟨e, es, he, h1⟩ := hin hx
    have hh : headNode (k + 1) x = wordNode (k + 1) y.id := by unfold headNode; rw [if_neg h0, hh]
    have hnode : g.HasNode (wordNode (k + 1) y.id) := (hg.nodes _).2 (.inr (.inr ⟨k, xs, hk, .inr ⟨y, hy, .inl rfl⟩⟩))
    have hword := (hg.word k xs y hk hy).1
    unfold traverseUp
    rw [he]
    simp only [h1, hh]
    rw [nodeGet_eq hnode, istoken_here hnode, hword col hcolne.1, hns, hword _ (qual_layers _ _), find_put_ne _ _ (Ne.symm hcolne.2.1), find_put_ne _ _ (Ne.symm (qual_ne_plain (by decide))), hval y hy]
    have htok : (find y.attrs (qual cfg.ns "token")).isSome = true := by
      obtain ⟨w, t, ht, hw⟩ := hwords xs (List.mem_of_getElem? hk) y hy
      obtain ⟨_, _, _, _, fs, _, ha, _⟩ := hw
      by_cases hfeat : ∃ v, FeatureIs fs "token" v
      · obtain ⟨v, hv⟩ := hfeat
        rw [ha.feature _ _ hv]
        rfl
      · rw [ha.token t ht (fun v hv => hfeat ⟨v, hv⟩)]
        rfl
    rw [htok]
    simp only [ih, List.map_cons]
    by_cases hv : val y = ""
    · rw [hv]
      rfl
    · rw [List.filter_cons_of_pos (by simpa using hv), List.map_cons]
      split
      · next heq => cases heq
      · next heq => cases heq
      · next heq => injection heq with heq; injection heq with heq; injection heq with heq; exact absurd heq hv
      · next heq => injection heq with heq; cases heq
      · next v _ _ _ heq => injection heq with heq; rw [heq]; rfl

/-! ### examples and failures -/

/-- a word with 14 columns -/
def sampleWord (n t l f h r : String) : ConllLine := .word ([n, t, "_", l, "_", "XX", "_", f, "_", h, "_", r, "_", "_"].map String.toList)

def sampleConllSents : List (List ConllLine) :=
  [[.comment " doc".toList, sampleWord "1" "Die" "der" "Nom|Sg|Fem" "2" "NK", sampleWord "2" "Sonne" "Sonne" "case=nom|number=sg|degree=*" "3" "SB", sampleWord "3" "scheint" "scheinen" "3|Sg|Pres|Ind" "0" "ROOT"],
   [sampleWord "1" "Ja" "ja" "_" "9" "--"]]

/-- the text of a file -/
def conllTextOf (ss : List (List ConllLine)) : List Char := joinChars ['\n', '\n'] (ss.map conllSentText) ++ ['\n']

def sampleCfg : ConllCfg := ⟨"conll", false, "phead", "pdeprel", "pfeat"⟩

/-- the hypotheses of `c53_read` can be met -/
example : ConllFile sampleCfg.new sampleConllSents (conllTextOf sampleConllSents) ∧ (sampleCfg.headAttr ∈ sampleCfg.columns ∧ sampleCfg.deprelAttr ∈ sampleCfg.columns ∧ sampleCfg.featAttr ∈ sampleCfg.columns) ∧
    (∀ ls ∈ sampleConllSents, ∀ w ∈ conllWords sampleCfg.columns ls, ∃ n i, find w "word_id" = some n ∧ pyInt n = some i) ∧
    (∀ ls ∈ sampleConllSents, ((conllWords sampleCfg.columns ls).map (fun w => find w "word_id")).Nodup) := by
  refine ⟨⟨by decide, ?_, [], ['\n'], joinChars ['\n', '\n'] (sampleConllSents.map conllSentText), rfl, rfl, by decide, ⟨'#', by decide, by decide⟩, ⟨'_', by decide +kernel, by decide⟩⟩, by decide, ?_, by decide +kernel⟩
  · intro ls hls
    simp only [sampleConllSents, List.mem_cons, List.not_mem_nil, or_false] at hls
    rcases hls with rfl | rfl
    · refine ⟨by decide, ?_⟩
      intro l hl
      simp only [List.mem_cons, List.not_mem_nil, or_false] at hl
      rcases hl with rfl | rfl | rfl | rfl
      · show '\n' ∉ _
        decide
      · exact ⟨by decide, by decide⟩
      · exact ⟨by decide, by decide⟩
      · exact ⟨by decide, by decide⟩
    · refine ⟨by decide, ?_⟩
      intro l hl
      simp only [List.mem_cons, List.not_mem_nil, or_false] at hl
      subst hl
      exact ⟨by decide, by decide⟩
  · intro ls hls w hw
    have : ∀ ls ∈ sampleConllSents, ∀ w ∈ conllWords sampleCfg.columns ls, ((find w "word_id").bind pyInt).isSome = true := by decide +kernel
    have := this ls hls w hw
    cases hn : find w "word_id" with
    | none => rw [hn] at this; cases this
    | some n =>
      rw [hn] at this
      obtain ⟨i, hi⟩ := Option.isSome_iff_exists.1 this
      exact ⟨n, i, rfl, hi⟩

set_option synthInstance.maxSize 1000 in
/-- what is read from the file: tokens, sentences, features, the lemmas of the heads of the first word -/
example : (conllRead sampleCfg "f" (conllTextOf sampleConllSents)).map (fun g => (g.tokens, g.sentences, g.nodeAttr (.str "s1_t1") "conll:gender", g.nodeAttr (.str "s1_t2") "conll:degree", g.nodeAttr (.str "s1_t3") "conll:person",
    traverseUp "plemma" 10 g (.str "s1_t1"), has g.nodes (.str "s2_t9"))) =
    .ok ([.str "s1_t1", .str "s1_t2", .str "s1_t3", .str "s2_t1"], [.str "s1", .str "s2"], some (.atom (.str "fem")), none, some (.atom (.int 3)),
      ([.atom (.str "Sonne"), .atom (.str "scheinen")], none), true) := by decide +kernel

/-- **C53** fails: a second empty line between two sentences makes a file unreadable -/
theorem c53_fails_blank_lines : ∃ a b : List Char, (∃ g, conllRead sampleCfg "f" (a ++ ['\n', '\n'] ++ b) = .ok g) ∧ conllRead sampleCfg "f" (a ++ ['\n', '\n', '\n'] ++ b) = .error .type := by
  refine ⟨conllSentText [sampleWord "1" "Ja" "ja" "_" "0" "--"], conllSentText [sampleWord "1" "Ja" "ja" "_" "0" "--"], ?_, by decide +kernel⟩
  have h : (conllRead sampleCfg "f" (conllSentText [sampleWord "1" "Ja" "ja" "_" "0" "--"] ++ ['\n', '\n'] ++ conllSentText [sampleWord "1" "Ja" "ja" "_" "0" "--"])).isOk = true := by decide +kernel
  revert h
  cases conllRead sampleCfg "f" (conllSentText [sampleWord "1" "Ja" "ja" "_" "0" "--"] ++ ['\n', '\n'] ++ conllSentText [sampleWord "1" "Ja" "ja" "_" "0" "--"]) with
  | error e => intro h; cases h
  | ok g => exact fun _ => ⟨g, rfl⟩

/-- **C53** fails: Windows line ends make sentences disappear into one another: the file cannot be read -/
theorem c53_fails_crlf : conllRead sampleCfg "f" (conllSentText [sampleWord "1" "Ja" "ja" "_" "0" "--"] ++ ['\r', '\n', '\r', '\n'] ++ conllSentText [sampleWord "1" "Ja" "ja" "_" "0" "--"]) = .error .type := by decide +kernel

/-- **C53** fails: a feature called `token` replaces the token string, so the text of the document is not the text of the file -/
theorem c53_fails_token_feature : (conllRead sampleCfg "f" (conllTextOf [[sampleWord "1" "Ja" "ja" "token=Nein" "0" "--"]])).map (fun g => (g.nodeAttr (.str "s1_t1") "token", g.nodeAttr (.str "s1_t1") "conll:token")) =
    .ok (some (.atom (.str "Ja")), some (.atom (.str "Nein"))) := by decide +kernel

/-- **C53** fails: words that depend on each other have no root to arrive at -/
theorem c53_fails_cycle : (conllRead sampleCfg "f" (conllTextOf [[sampleWord "1" "Ja" "ja" "_" "2" "--", sampleWord "2" "ja" "ja" "_" "1" "--"]])).map (fun g => (traverseUp "plemma" 5 g (.str "s1_t1")).2) = .ok (some .recursion) := by decide +kernel

/-- a feature string gives at most one value to a feature -/
theorem c53_feature_unique {fs : List Char} {f : String} {v v' : Val} (h : FeatureIs fs f v) (h' : FeatureIs fs f v') : v = v' := featureIs_unique h h'

example : FeatureIs "case=nom|case=acc".toList "case" (.atom (.str "acc")) :=
  ⟨["case=nom".toList], "case=acc".toList, [], by decide, by decide, by unfold PieceSays; rw [if_pos (by decide)]; exact .other (a := "case") (v := "acc".toList) (by decide) (by decide) (by decide) (by decide) (by decide), by simp⟩

example : HeadPath [⟨['1'], ['2'], [], []⟩, ⟨['2'], ['0'], [], []⟩] ⟨['1'], ['2'], [], []⟩ [⟨['2'], ['0'], [], []⟩] := .head (by decide) (by decide) rfl (.root rfl)

end DG
end Dg
