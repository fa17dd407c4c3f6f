import Verif.Spec.CliFiles
import Verif.Lemmas.MmaxInv
import Verif.Lemmas.ReadLayer
import Verif.Props.C43
import Verif.Props.C62
import Verif.Props.C74
import Verif.Props.C75

/-! **C77** The command line application merges the TigerXML, RST, Conano and MMAX files of a text. -/

namespace Dg
open Dict
namespace DG

/-! ### mmax -/

theorem toks_word {doc : MmaxDoc} {m : Markable} {t : NodeId} (h : t ∈ doc.toks m) : ∃ i ∈ doc.wordIds, t = .str i := by
  unfold MmaxDoc.toks at h
  obtain ⟨i, hi, rfl⟩ := List.mem_map.1 h
  exact ⟨i, of_decide_eq_true (List.mem_filter.1 hi).2, rfl⟩

/-- **C77 (mmax)**.  What the reader for MMAX projects returns is a layer that can be merged, for the words of the project; it does not get into the way of documents with another namespace, and (if no markable is its own antecedent) has no edges from a node to itself. -/
theorem c77_mmax {ns : String} {precedence connected ignore : Bool} {doc : MmaxDoc} {p : MmaxProject} (hd : doc.Ok ns ignore) (hp : p.Has ignore doc) (name : Option String) {order : List String} (ho : order.Perm (doc.levels.map Prod.fst))
    (hname : ignore = true → ∀ n, name = some n → n = "" ∨ mmaxFileId n = mmaxFileId p.base) (h2 : precedence = true → 2 ≤ doc.words.length) :
    ∃ g, mmaxRead name ns precedence connected ignore p order = .ok g ∧ MmaxContent ns precedence connected ignore doc g ∧ Layer (doc.words.map Prod.snd) g ∧
      ∀ ns', ns' ≠ ns → ':' ∉ ns'.toList → ':' ∉ ns.toList → (∀ n, g.nodeAttr n (ns' ++ (":" ++ "token")) = none) ∧ ((∀ x ∈ doc.marks, ∀ a ∈ x.2.antes, a.2 ≠ x.2.id) → Tidy ns' g) := by
  obtain ⟨lv, g0, g, e, -, -, c, ss, v, u, -⟩ := mmaxRead_content hd hp name ho hname h2
  have hi : Inv g := mmaxRead_inv e
  have hids := List.nodup_append.1 hd.ids
  have hids1 := List.nodup_append.1 hids.1
  have hroot := hd.root
  have hrw : qual ns "root_node" ∉ doc.wordIds := fun h => hroot (List.mem_append_left _ (List.mem_append_left _ h))
  have hrm : qual ns "root_node" ∉ doc.markIds := fun h => hroot (List.mem_append_left _ (List.mem_append_right _ h))
  have hnd : doc.tokens.Nodup := hids1.1.map (fun a b h => NodeId.str.inj h)
  have hrt : docRoot ns ∉ doc.tokens := by
    intro h
    obtain ⟨i, hi, e⟩ := List.mem_map.1 h
    have : i = qual ns "root_node" := NodeId.str.inj e
    exact hrw (this ▸ hi)
  -- the targets of edges
  have htarget : ∀ e ∈ wordEdges ns precedence connected doc ++ doc.marks.flatMap (markEdges ns doc),
      (e.target ∈ doc.tokens ∧ e.source ≠ e.target) ∨ ∃ x ∈ doc.marks, ∃ a ∈ x.2.antes, e.source = x.2.node ∧ e.target = .str a.2 := by
    intro e he
    rcases List.mem_append.1 he with he | he
    · left
      unfold wordEdges at he
      split at he
      · unfold precEdges at he
        obtain ⟨q, hq, rfl⟩ := List.mem_map.1 he
        obtain ⟨a, b⟩ := zip_tail_ne (List.nodup_cons.2 ⟨hrt, hnd⟩) q hq
        exact ⟨b, a⟩
      · split at he
        · obtain ⟨t, ht, rfl⟩ := List.mem_map.1 he
          exact ⟨ht, fun h => hrt ((show docRoot ns = t from h) ▸ ht)⟩
        · cases he
    · obtain ⟨x, hx, he⟩ := List.mem_flatMap.1 he
      unfold markEdges at he
      rcases List.mem_append.1 he with he | he
      · left
        obtain ⟨t, ht, rfl⟩ := List.mem_map.1 he
        obtain ⟨i, hi, rfl⟩ := toks_word ht
        refine ⟨List.mem_map_of_mem hi, fun h => ?_⟩
        have : x.2.id = i := NodeId.str.inj h
        exact hids1.2.2 i hi i (this ▸ mem_markIds hx) rfl
      · right
        obtain ⟨a, ha, rfl⟩ := List.mem_map.1 he
        exact ⟨x, hx, a, ha, rfl, rfl⟩
  refine ⟨g, e, c, ⟨hi, ?_, ?_, ?_, ?_, ?_, ?_, ?_⟩, ?_⟩
  · have hl : AllLayered g := u.layered v.layered (fun n l h => extraLayer_str h)
    have hne : ∀ n, g.HasNode n → ∃ l, g.NodeLayer n l := by
      intro n hn
      rcases (c.nodes n).1 hn with rfl | ⟨i, hi, rfl⟩
      · exact ⟨_, (c.rootLayer _).2 rfl⟩
      · by_cases hw : i ∈ doc.wordIds
        · exact ⟨_, (c.wordLayer i hw _).2 (List.mem_cons_self)⟩
        by_cases hm : i ∈ doc.markIds
        · obtain ⟨x, hx, rfl⟩ := List.mem_map.1 hm
          exact ⟨_, (c.markLayer x hx).1 ns (by simp [levelLayers])⟩
        by_cases ha : i ∈ doc.anteIds
        · exact ⟨_, (c.missingLayer i ha hw hm).1 ns (by simp)⟩
        · have hs : i ∈ doc.sentIds ignore := by
            simp only [List.mem_append] at hi
            tauto
          unfold MmaxDoc.sentIds at hs
          split at hs
          · rename_i hig
            obtain ⟨m, hmm, rfl⟩ := List.mem_map.1 hs
            exact ⟨_, (c.sentenceLayer hig m hmm _).2 (List.mem_cons_self)⟩
          · cases hs
    intro n a ha
    obtain ⟨xs, h3, h4⟩ := hl n a ha
    refine ⟨xs, h3, h4, ?_⟩
    rintro rfl
    obtain ⟨l, b, hb, ys, h5, h6⟩ := hne n (hasNode_iff'.2 ⟨a, ha⟩)
    rw [ha] at hb
    cases hb
    rw [h3] at h5
    cases h5
    cases h6
  · unfold HasTokens
    rw [c.tokens]
    show List.Forall₂ g.TokenStr ((doc.words.map Prod.fst).map NodeId.str) _
    rw [List.map_map]
    refine hasTokens_map (fun w hw => ?_)
    show g.nodeAttr (.str w.1) (qual g.ns "token") = _
    rw [c.space, c.word w hw _ (qual_ne_plain (by decide)), if_pos (.inr rfl)]
    rfl
  · rw [c.tokens]; exact hnd
  · rw [c.tokens, c.root]; exact hrt
  · rw [c.root, c.nodes]; exact .inl rfl
  · refine noInEdges_of (fun w a h => ?_)
    rw [c.root] at h
    obtain ⟨e, he, -, ht, -⟩ := c.edges.sound _ _ _ h
    rcases htarget e he with ⟨h1, -⟩ | ⟨x, hx, b, hb, -, h1⟩
    · exact hrt (ht ▸ h1)
    · have : b.2 = qual ns "root_node" := NodeId.str.inj (h1.symm.trans ht)
      exact ante_not_root hd hx hb this
  · intro w hw
    rw [c.root, c.rootAttr _ (by decide), if_pos rfl] at hw
    exact ⟨_, (Option.some.inj hw).symm⟩
  · intro ns' hne h3 h4
    have hq : ∀ s, qual ns' "token" ≠ qual ns s := fun s => qual_apart hne h3 h4
    have ql : qual ns' "token" ≠ "layers" := qual_ne_plain (by decide)
    have qb : qual ns' "token" ≠ "label" := qual_ne_plain (by decide)
    have qt : qual ns' "token" ≠ "tokens" := qual_ne_plain (by decide)
    have qm : qual ns' "token" ≠ "metadata" := qual_ne_plain (by decide)
    have htok : ∀ n, g.nodeAttr n (qual ns' "token") = none := by
      intro n
      by_cases hn : g.HasNode n
      · rcases (c.nodes n).1 hn with rfl | ⟨i, hi, rfl⟩
        · rw [c.rootAttr _ ql, if_neg qm]
        · by_cases hw : i ∈ doc.wordIds
          · obtain ⟨w, hww, rfl⟩ := List.mem_map.1 hw
            rw [c.word w hww _ ql, if_neg (by exact fun h => h.elim qb (hq _))]
          by_cases hm : i ∈ doc.markIds
          · obtain ⟨x, hx, rfl⟩ := List.mem_map.1 hm
            show g.nodeAttr x.2.node _ = none
            rw [c.mark x hx _ ql qt]
            unfold markAttr
            rw [if_neg qb, find_eq_none_iff, keys_xmlAttrs]
            intro h
            obtain ⟨k, -, h⟩ := List.mem_map.1 h
            exact hq _ h.symm
          by_cases ha : i ∈ doc.anteIds
          · exact c.missing i ha hw hm _ ql
          · have hs : i ∈ doc.sentIds ignore := by
              simp only [List.mem_append] at hi
              tauto
            unfold MmaxDoc.sentIds at hs
            split at hs
            · rename_i hig
              obtain ⟨m, hmm, rfl⟩ := List.mem_map.1 hs
              exact (c.sentence m (by unfold MmaxDoc.sentences; rw [if_pos hig]; exact hmm)).2 hig _ ql qt
            · cases hs
      · by_contra hc
        obtain ⟨w, hw⟩ := Option.ne_none_iff_exists'.1 hc
        exact hn (hasNode_iff'.2 (nodeAttr_hasNode hw))
    refine ⟨htok, fun hl => ⟨htok, noLoops_of (fun w a h => ?_)⟩⟩
    obtain ⟨e, he, hs, ht, -⟩ := c.edges.sound _ _ _ h
    rcases htarget e he with ⟨-, h1⟩ | ⟨x, hx, b, hb, h1, h5⟩
    · exact h1 (hs.trans ht.symm)
    · exact hl x hx b hb (NodeId.str.inj ((h5.symm.trans (ht.trans hs.symm)).trans h1))

/-! ### the four files -/

/-- the names that the reader for a kind of files puts before its own IDs -/
def ownNames : CliKind → List String
  | .tiger => ["tiger"]
  | .rst => ["rst"]
  | .anaphoricity => []
  | .conano => ["conano", "token"]
  | .mmax => ["mmax"]

/-- an ID made by the reader itself -/
def Owned (k : CliKind) (m : NodeId) : Prop := ∃ a ∈ ownNames k, ∃ b, m = .str (qual a b)

/-- what is known about the graph read from a file -/
structure CliLayer (strs : List String) (k : CliKind) (ids : String → Prop) (g : DG) : Prop where
  layer : Layer strs g
  token : ∀ n, g.nodeAttr n "discoursegraph:token" = none
  nodes : ∀ m, g.HasNode m → Owned k m ∨ ∃ x, ids x ∧ m = .str x
  root : Owned k g.root

theorem tiger_words {name : String} {ss : List TigerS} (hd : ValidDoc "tiger" ss) {strs : List String} (h1 : List.Forall₂ (TigerWord ss) (ss.flatMap (fun s => naturalSorted s.toks)) strs) :
    ∃ g, tigerRead name "tiger" ss = .ok g ∧ CliLayer strs .tiger (TigerId ss) g := by
  obtain ⟨g1, strs1, e1, w1, l1, t1⟩ := c75_tiger_partial name ss hd
  obtain ⟨g, e, d, -⟩ := tigerRead_graph (name := name) hd
  obtain rfl : g = g1 := Except.ok.inj (e.symm.trans e1)
  have htok1 : g.tokens = ss.flatMap (fun s => naturalSorted s.toks) := d.tokens
  obtain rfl : strs1 = strs := by
    rw [htok1] at w1
    have huniq : ∀ n a b, TigerWord ss n a → TigerWord ss n b → a = b := by
      rintro n a b ⟨x, hx, u, hu, rfl, ha⟩ ⟨y, hy, v, hv, hv', hb⟩
      obtain ⟨wu, fu, -, gu⟩ := (c55_terminal_attributes name "tiger" ss hd g e x hx u hu).2.1
      obtain ⟨wv, fv, -, gv⟩ := (c55_terminal_attributes name "tiger" ss hd g e y hy v hv).2.1
      rw [hv'] at gv
      have := gu.symm.trans gv
      have hwv : wu = wv := by injection this with h; injection h with h; injection h
      rw [ha] at fu; rw [hb] at fv
      rw [Option.some.inj fu, Option.some.inj fv, hwv]
    exact List.right_unique_forall₂' huniq w1 h1
  have hdecl : ∀ s ∈ ss, ∀ m ∈ s.declared, ∃ x, TigerId ss x ∧ m = .str x := by
    intro s hs m hm
    have hmem := List.mem_flatMap.2 ⟨s, hs, hm⟩
    rcases List.mem_append.1 hm with hm | hm <;> obtain ⟨y, -, rfl⟩ := List.mem_map.1 hm <;> exact ⟨_, hmem, rfl⟩
  refine ⟨g, e, l1, (t1 "discoursegraph" (by decide) (by decide)).1, ?_, ⟨"tiger", by simp [ownNames], "root_node", d.root⟩⟩
  intro m hm
  rcases (d.nodes m).1 hm with rfl | ⟨s, hs, h | h⟩
  · exact .inl ⟨"tiger", by simp [ownNames], _, rfl⟩
  · exact .inr (hdecl s hs m h)
  · rcases topNode_cases (p := "tiger") (hd.valid s hs) with ⟨-, ht⟩ | ⟨-, -, ht⟩
    · exact .inl ⟨"tiger", by simp [ownNames], _, h.trans ht⟩
    · exact .inr (hdecl s hs m (h ▸ ht))

/-- each of the files becomes a layer -/
theorem cliText_layer {fs : CliFiles} {strs : List String} {k : CliKind} {p : String} {ids : String → Prop} (h : CliText fs strs k p ids) : ∃ g, cliRead fs k p = .ok g ∧ CliLayer strs k ids g := by
  have n : ':' ∉ "discoursegraph".toList := by decide
  cases h with
  | tiger valid words => exact tiger_words valid words
  | rst valid words =>
    obtain ⟨g, e⟩ := c57_reads (cliName p) "rst" true false (fs.rst p) valid (by simp)
    obtain ⟨l, t⟩ := c75_rst _ "rst" false _ valid g _ e
    rw [words] at l
    have hr : g.root = Rs3Doc.rootNode "rst" (fs.rst p) := by
      obtain ⟨s, -⟩ := rstRead_content valid e
      rw [s.root]
      exact rootAfter_eq "rst" valid
    refine ⟨g, ?_, l, (t "discoursegraph" (by decide) n (by decide)).1, ?_, ?_⟩
    · unfold cliRead
      dsimp only
      rw [e]
      rfl
    · intro m hm
      rcases (c57_nodes _ "rst" true false _ valid g _ e m).1 hm with ⟨x, -, rfl⟩ | ⟨-, u, -, rfl⟩ | ⟨rfl, -⟩ <;> exact .inl ⟨"rst", by simp [ownNames], _, rfl⟩
    · obtain ⟨y, hy⟩ := rstRoot_qual "rst" (fs.rst p)
      exact ⟨"rst", by simp [ownNames], y, hr.trans hy⟩
  | conano resolve valid words plain =>
    rename_i t
    obtain ⟨g, e, l, ht⟩ := c75_conano (cliName p) "conano" _ t resolve valid
    obtain ⟨g', e', hb⟩ := conanoRead_built (cliName p) resolve
    obtain ⟨g'', e'', -, -, -, htok, -, hn, -⟩ := c43_read (cliName p) "conano" _ t resolve
    obtain rfl : g' = g := Except.ok.inj (e'.symm.trans e)
    obtain rfl : g'' = g' := Except.ok.inj (e''.symm.trans e)
    rw [words] at l
    refine ⟨g'', (c43_check _ _ _ _).2 ⟨e, plain⟩, l, (ht "discoursegraph" (by decide) n (by decide)).1, ?_, ⟨"conano", by simp [ownNames], _, hb.root.trans (conanoRoot_qual _)⟩⟩
    intro m hm
    rcases (hn m).1 hm with rfl | hm | ⟨q, x, ls, hq, rfl⟩
    · exact .inl ⟨"conano", by simp [ownNames], _, conanoRoot_qual _⟩
    · rw [htok] at hm
      obtain ⟨j, -, rfl⟩ := List.mem_map.1 hm
      exact .inl ⟨"token", by simp [ownNames], _, conanoToken_qual j⟩
    · exact .inr ⟨x, ⟨_, q, ls, hq⟩, rfl⟩
  | mmax valid content order words =>
    obtain ⟨g, e, c, l, t⟩ := c77_mmax (precedence := false) (connected := false) valid content none order (by simp) (by simp)
    rw [words] at l
    refine ⟨g, e, l, (t "discoursegraph" (by decide) n (by decide)).1, ?_, ⟨"mmax", by simp [ownNames], _, c.root⟩⟩
    intro m hm
    rcases (c.nodes m).1 hm with rfl | ⟨x, hx, rfl⟩
    · exact .inl ⟨"mmax", by simp [ownNames], _, rfl⟩
    · exact .inr ⟨x, hx, rfl⟩

theorem ownNames_plain : ∀ (k : CliKind), ∀ a ∈ ownNames k, ':' ∉ a.toList ∧ a ∈ ["discoursegraph", "tiger", "rst", "conano", "token", "mmax"] ∧ a ≠ "discoursegraph" := by
  intro k a ha
  have : ∀ a ∈ ["tiger", "rst", "conano", "token", "mmax"], ':' ∉ a.toList ∧ a ∈ ["discoursegraph", "tiger", "rst", "conano", "token", "mmax"] ∧ a ≠ "discoursegraph" := by decide
  refine this a ?_
  cases k <;> simp only [ownNames, List.mem_cons, List.not_mem_nil, or_false] at ha ⊢ <;> tauto

theorem ownNames_apart : ∀ (k k' : CliKind), k ≠ k' → ∀ a ∈ ownNames k, a ∉ ownNames k' := by
  intro k k' hk a ha
  cases k <;> cases k' <;> first | exact (hk rfl).elim | (simp only [ownNames, List.mem_cons, List.not_mem_nil, or_false] at ha ⊢; rcases ha with rfl | rfl <;> decide) | (simp only [ownNames, List.mem_cons, List.not_mem_nil, or_false] at ha ⊢; subst ha; decide) | simp [ownNames] at ha ⊢

/-- graphs read from different files have no node in common -/
theorem cliLayer_disjoint {strs : List String} {k k' : CliKind} {ids ids' : String → Prop} {g g' : DG} (h : CliLayer strs k ids g) (h' : CliLayer strs k' ids' g') (hk : k ≠ k')
    (hi : ∀ x, ids x → HarmlessId x) (hi' : ∀ x, ids' x → HarmlessId x) (hd : ∀ x, ids x → ¬ ids' x) (m : NodeId) (hm : g.HasNode m) : ¬ g'.HasNode m := by
  intro hm'
  rcases h.nodes m hm with ⟨a, ha, b, rfl⟩ | ⟨x, hx, rfl⟩
  · rcases h'.nodes _ hm' with ⟨a', ha', b', e⟩ | ⟨x, hx, e⟩
    · exact qual_apart (fun e : a = a' => ownNames_apart k k' hk a ha (e ▸ ha')) (ownNames_plain k a ha).1 (ownNames_plain k' a' ha').1 (NodeId.str.inj e)
    · exact (hi' x hx).2 a (ownNames_plain k a ha).2.1 b (NodeId.str.inj e).symm
  · rcases h'.nodes _ hm' with ⟨a', ha', b', e⟩ | ⟨y, hy, e⟩
    · exact (hi x hx).2 a' (ownNames_plain k' a' ha').2.1 b' (NodeId.str.inj e)
    · exact hd x hx ((NodeId.str.inj e) ▸ hy)

theorem cliLayer_noRoot {strs : List String} {k : CliKind} {ids : String → Prop} {g : DG} (h : CliLayer strs k ids g) (hi : ∀ x, ids x → HarmlessId x) : ¬ g.HasNode (.str "discoursegraph:root_node") := by
  intro hm
  have hq : "discoursegraph:root_node" = qual "discoursegraph" "root_node" := by decide
  rw [hq] at hm
  rcases h.nodes _ hm with ⟨a, ha, b, e⟩ | ⟨x, hx, e⟩
  · exact qual_apart (ownNames_plain k a ha).2.2 (ownNames_plain k a ha).1 (by decide) (NodeId.str.inj e).symm
  · exact (hi x hx).2 "discoursegraph" (by simp) _ (NodeId.str.inj e).symm

theorem token_hasNode {g : DG} {strs : List String} (h : g.HasTokens strs) {t : NodeId} (ht : t ∈ g.tokens) : g.HasNode t := by
  obtain ⟨s, -, hs⟩ := forall₂_mem_left h ht
  exact hasNode_iff'.2 (nodeAttr_hasNode hs)

theorem cliLayer_apart {strs : List String} {k k' : CliKind} {ids ids' : String → Prop} {g g' : DG} (h : CliLayer strs k ids g) (h' : CliLayer strs k' ids' g') (hk : k ≠ k')
    (hi : ∀ x, ids x → HarmlessId x) (hi' : ∀ x, ids' x → HarmlessId x) (hd : ∀ x, ids x → ¬ ids' x) : Apart g.tokens (.str "discoursegraph:root_node") "discoursegraph" g' := by
  refine ⟨fun t ht => cliLayer_disjoint h h' hk hi hi' hd t (token_hasNode h.layer.strings ht), cliLayer_noRoot h' hi', h'.token, .inl ?_⟩
  intro t ht
  rcases h.nodes t (token_hasNode h.layer.strings ht) with ⟨a, -, b, rfl⟩ | ⟨x, hx, rfl⟩
  · refine ⟨by simp, fun e => ?_⟩
    have := colon_qual a b
    rw [NodeId.str.inj e] at this
    cases this
  · exact ⟨by simp, fun e => (hi x hx).1 (NodeId.str.inj e)⟩

/-- **C77 (the application)**.  If the files given to `merging.py` (at most one TigerXML, RST and Conano file and one MMAX project, but no anaphoricity file) are correct and contain the same words, and their IDs cannot be mixed up, then each of them can be read, and the application
writes, in the given format, one document: it has the words as its tokens, completely contains all annotations, and nothing else. -/
theorem c77_application_partial (fs : CliFiles) {a : CliArgs} (hana : a.NotGiven .anaphoricity) {first : CliKind × String} {rest : List (CliKind × String)} (hf : a.FilesAre (first :: rest))
    (hex : ∀ k p, (k, p) ∈ first :: rest → k ≠ .mmax → fs.isFile p = true) {strs : List String} (hne : strs ≠ []) {ids : CliKind → String → Prop} (ht : ∀ f ∈ first :: rest, CliText fs strs f.1 f.2 (ids f.1))
    (hi : ∀ f ∈ first :: rest, ∀ x, ids f.1 x → HarmlessId x) (hd : ∀ f ∈ first :: rest, ∀ f' ∈ first :: rest, f.1 ≠ f'.1 → ∀ x, ids f.1 x → ¬ ids f'.1 x) :
    ∃ graph : CliKind × String → DG, (∀ f ∈ first :: rest, cliRead fs f.1 f.2 = .ok (graph f)) ∧
      ∀ {α : Type} (sched : CliKind → Sched) (write : CliWriter → Option String → DG → Except PyErr α), (sched first.1).Valid [] → (∀ f ∈ rest, (sched f.1).Valid ((graph f).tokens.zip (graph first).tokens)) →
        ∃ g', g'.Document strs ∧ g'.tokens = (graph first).tokens ∧ (∀ before f later, first :: rest = before ++ f :: later → LayerIn (later.map graph) (graph f) g') ∧
          (∀ n, g'.HasNode n → n = .str "discoursegraph:root_node" ∨ ∃ f ∈ first :: rest, ∃ m, (graph f).HasNode m ∧ m ≠ (graph f).root ∧ asIn g'.tokens (graph f) m = n) ∧
          g'.edges.length = ((first :: rest).map (fun f => (graph f).edges.length)).sum ∧
          (∀ w, CliFormat a.format w → (w = .pickle → a.output ≠ none) → mergingCli (cliFilesEnv fs sched write) a = (write w a.output g').map some) ∧
          (a.format = "no-output" → mergingCli (cliFilesEnv fs sched write) a = .ok none) := by
  classical
  let graph : CliKind × String → DG := fun f => (cliRead fs f.1 f.2).toOption.getD (init "" "" none)
  have hg : ∀ f ∈ first :: rest, cliRead fs f.1 f.2 = .ok (graph f) ∧ CliLayer strs f.1 (ids f.1) (graph f) := by
    intro f hf
    obtain ⟨g, e, l⟩ := cliText_layer (ht f hf)
    have hgr : graph f = g := by
      show (cliRead fs f.1 f.2).toOption.getD _ = g
      rw [e]
      rfl
    rw [hgr]
    exact ⟨e, l⟩
  have hnd : ((first :: rest).map Prod.fst).Nodup := hf.1.nodup (by decide)
  refine ⟨graph, fun f hf => (hg f hf).1, fun sched write hs1 hs2 => ?_⟩
  have hkind : ∀ f ∈ rest, first.1 ≠ f.1 := by
    intro f hf e
    rw [List.map_cons, List.nodup_cons] at hnd
    exact hnd.1 (e ▸ List.mem_map_of_mem hf)
  have mem : ∀ f ∈ rest, f ∈ first :: rest := fun f hf => List.mem_cons_of_mem _ hf
  obtain ⟨g', e, h1, h2, h3, h4, h5, -⟩ := c74_merges_partial (cliFilesEnv fs sched write) hana hf hex (graph := graph) (fun f hf => (hg f hf).1) hne
    (fun f hf => ⟨(hg f hf).2.layer, cliLayer_noRoot (hg f hf).2 (hi f hf), (hg f hf).2.token⟩)
    (fun f hf => cliLayer_apart (hg first List.mem_cons_self).2 (hg f (mem f hf)).2 (hkind f hf) (hi first List.mem_cons_self) (hi f (mem f hf)) (hd first List.mem_cons_self f (mem f hf) (hkind f hf)))
    (by
      rw [List.nodup_iff_pairwise_ne, List.pairwise_map] at hnd
      refine List.Pairwise.imp_of_mem ?_ hnd
      intro x y hx hy hxy
      have r : ∀ f ∈ first :: rest, (graph f).HasNode (graph f).root := fun f hf => (hg f hf).2.layer.hasRoot
      exact ⟨fun h => cliLayer_disjoint (hg x hx).2 (hg y hy).2 hxy (hi x hx) (hi y hy) (hd x hx y hy hxy) _ h (r y hy),
        fun h => cliLayer_disjoint (hg x hx).2 (hg y hy).2 hxy (hi x hx) (hi y hy) (hd x hx y hy hxy) _ (r x hx) h⟩)
    ⟨hs1, hs2⟩
  exact ⟨g', h1, h2, h3, h4, h5, fun w hw hp => c74_output _ hw e hp, fun hw => c74_no_output _ hw e⟩

/-! ### the hypotheses are met by the four files of the text "das Haus" -/

theorem harmless_plain {x : String} (h : x ≠ "") (hc : ':' ∉ x.toList) : HarmlessId x := ⟨h, fun a _ b e => hc (e ▸ colon_qual a b)⟩

theorem harmless_qual {a b : String} (h : a ∉ ["discoursegraph", "tiger", "rst", "conano", "token", "mmax"]) (hc : ':' ∉ a.toList) : HarmlessId (qual a b) := by
  refine ⟨fun e => ?_, fun a' ha' b' e => ?_⟩
  · have := colon_qual a b
    rw [e] at this
    cases this
  · have hc' : ∀ a ∈ ["discoursegraph", "tiger", "rst", "conano", "token", "mmax"], ':' ∉ a.toList := by decide
    exact qual_apart (fun e : a = a' => h (e ▸ ha')) hc (hc' a' ha') e

/-- the MMAX project: two words, a level with a noun phrase, one sentence -/
def hausMmax : MmaxDoc where
  words := [("word_1", "das"), ("word_2", "Haus")]
  levels := [("np", [c62Mark "markable_1" "word_1..word_2" ["word_1", "word_2"] "empty" []])]
  sents := [c62Mark "markable_2" "word_1..word_2" ["word_1", "word_2"] "empty" []]

/-- the files -/
def hausFiles : CliFiles where
  isFile := fun _ => true
  tiger := fun _ => hausTiger
  rst := fun _ => hausRst
  anaphoricity := fun _ => []
  conano := fun _ => hausConano
  mmax := fun _ => ⟨"", hausMmax.words.map (fun w => ⟨w.1, some w.2⟩), ["np", "sentence"], fun i l => if i = "haus" then (if l = "np" then some [[("id", "markable_1"), ("span", "word_1..word_2"), ("anaphor_antecedent", "empty")]] else if l = "sentence" then some [[("id", "markable_2"), ("span", "word_1..word_2"), ("anaphor_antecedent", "empty")]] else none) else none⟩
  levels := fun _ => ["np"]

/-- the arguments -/
def hausArgs : CliArgs := ⟨fun k => match k with
  | .tiger => some "haus.xml"
  | .rst => some "haus.rs3"
  | .conano => some "haus.con"
  | .mmax => some "haus.mmax"
  | .anaphoricity => none, "dot", some "out"⟩

def hausList : List (CliKind × String) := [(.tiger, "haus.xml"), (.rst, "haus.rs3"), (.conano, "haus.con"), (.mmax, "haus.mmax")]

/-- the IDs -/
def hausIds : CliKind → String → Prop
  | .tiger => TigerId hausTiger
  | .conano => ConanoId hausConanoTree
  | .mmax => MmaxId hausMmax
  | _ => fun _ => False

theorem hausText : ∀ f ∈ hausList, CliText hausFiles ["das", "Haus"] f.1 f.2 (hausIds f.1) := by
  intro f hf
  simp only [hausList, List.mem_cons, List.not_mem_nil, or_false] at hf
  rcases hf with rfl | rfl | rfl | rfl
  · refine .tiger hausTiger_valid ?_
    show List.Forall₂ (TigerWord hausTiger) (hausTiger.flatMap (fun s => naturalSorted s.toks)) _
    rw [show hausTiger.flatMap (fun s => naturalSorted s.toks) = [.str "s1_1", .str "s1_2"] by decide +kernel]
    exact .cons ⟨_, List.mem_singleton.2 rfl, ⟨[("id", "s1_1"), ("word", "das"), ("pos", "ART")], []⟩, by simp, by decide, by decide⟩ (.cons ⟨_, List.mem_singleton.2 rfl, ⟨[("id", "s1_2"), ("word", "Haus"), ("pos", "NN")], []⟩, by simp, by decide, by decide⟩ .nil)
  · exact .rst hausRst_ok (show ((Rs3Doc.segments hausRst).flatMap (fun x => splitWs x.text)).map String.ofList = _ by decide +kernel)
  · refine .conano (t := hausConanoTree) rfl hausConano_distinct (show (hausConano.pieces.flatMap splitWs).map String.ofList = _ by decide +kernel) ?_
    show Words isAsciiSpace (plainText hausConano) (hausConano.pieces.flatMap splitWs)
    rw [show hausConano.pieces.flatMap splitWs = splitBy isAsciiSpace (plainText hausConano) by decide +kernel]
    exact splitBy_words _ _
  · exact .mmax (doc := hausMmax) (docOk_of (by decide +kernel)) ⟨rfl, by decide +kernel, by decide +kernel, by decide +kernel⟩ (List.Perm.refl _) rfl

theorem hausIds_tiger {x : String} (h : TigerId hausTiger x) : x ∈ ["s1_1", "s1_2", "s1_500"] := by
  unfold TigerId at h
  rw [show hausTiger.flatMap TigerS.declared = [.str "s1_1", .str "s1_2", .str "s1_500"] by decide] at h
  simpa using h

theorem hausIds_conano {x : String} (h : ConanoId hausConanoTree x) : x ∈ ["discourse", "1:ext"] := by
  obtain ⟨r, q, ls, hm⟩ := h
  rw [show hausConanoTree.steps r = [.elem r "discourse" ["conano"], .elem (.str "discourse") "1:ext" ["conano", "conano:unit", "conano:ext"], .word (.str "1:ext") "das".toList, .word (.str "1:ext") "Haus".toList] from rfl] at hm
  simp only [List.mem_cons, CStep.elem.injEq, reduceCtorEq, List.not_mem_nil, or_false] at hm
  rcases hm with ⟨-, rfl, -⟩ | ⟨-, rfl, -⟩ <;> simp

theorem hausIds_mmax {x : String} (h : MmaxId hausMmax x) : x ∈ ["word_1", "word_2", "markable_1", "markable_2"] := h

theorem hausIds_all {k : CliKind} {x : String} (h : hausIds k x) : (k = .tiger ∧ x ∈ ["s1_1", "s1_2", "s1_500"]) ∨ (k = .conano ∧ x ∈ ["discourse", "1:ext"]) ∨ (k = .mmax ∧ x ∈ ["word_1", "word_2", "markable_1", "markable_2"]) := by
  cases k
  · exact .inl ⟨rfl, hausIds_tiger h⟩
  · exact h.elim
  · exact h.elim
  · exact .inr (.inl ⟨rfl, hausIds_conano h⟩)
  · exact .inr (.inr ⟨rfl, hausIds_mmax h⟩)

theorem hausIds_harmless (f : CliKind × String) (x : String) (h : hausIds f.1 x) : HarmlessId x := by
  rcases hausIds_all h with ⟨-, h⟩ | ⟨-, h⟩ | ⟨-, h⟩
  · have : ∀ x ∈ ["s1_1", "s1_2", "s1_500"], x ≠ "" ∧ ':' ∉ x.toList := by decide
    exact harmless_plain (this x h).1 (this x h).2
  · simp only [List.mem_cons, List.not_mem_nil, or_false] at h
    rcases h with rfl | rfl
    · exact harmless_plain (by decide) (by decide)
    · rw [show "1:ext" = qual "1" "ext" by decide]
      exact harmless_qual (by decide) (by decide)
  · have : ∀ x ∈ ["word_1", "word_2", "markable_1", "markable_2"], x ≠ "" ∧ ':' ∉ x.toList := by decide
    exact harmless_plain (this x h).1 (this x h).2

theorem hausIds_disjoint (k k' : CliKind) (hk : k ≠ k') (x : String) (h : hausIds k x) : ¬ hausIds k' x := by
  intro h'
  have key : ∀ x ∈ ["s1_1", "s1_2", "s1_500"], x ∉ ["discourse", "1:ext"] ∧ x ∉ ["word_1", "word_2", "markable_1", "markable_2"] := by decide
  have key' : ∀ x ∈ ["discourse", "1:ext"], x ∉ ["word_1", "word_2", "markable_1", "markable_2"] := by decide
  rcases hausIds_all h with ⟨rfl, q⟩ | ⟨rfl, q⟩ | ⟨rfl, q⟩ <;> rcases hausIds_all h' with ⟨rfl, q'⟩ | ⟨rfl, q'⟩ | ⟨rfl, q'⟩
  · exact hk rfl
  · exact (key x q).1 q'
  · exact (key x q).2 q'
  · exact (key x q').1 q
  · exact hk rfl
  · exact key' x q q'
  · exact (key x q').2 q
  · exact key' x q' q
  · exact hk rfl

theorem hausFilesAre : hausArgs.FilesAre hausList := by
  refine ⟨by decide, fun k p => ?_⟩
  unfold CliArgs.Given
  cases k <;> simp [hausList, hausArgs] <;> constructor <;> (try rintro ⟨rfl, -⟩) <;> simp

/-- the chances for each kind of files -/
def hausScheds : CliKind → Sched
  | .tiger => ⟨some [], []⟩
  | .rst => hausSched (.str "rst:rst:1_0") (.str "rst:rst:1_1")
  | .conano => hausSched (.str "token:1") (.str "token:2")
  | _ => hausSched (.str "word_1") (.str "word_2")

example : ∃ (graph : CliKind × String → DG) (g' : DG), (∀ f ∈ hausList, cliRead hausFiles f.1 f.2 = .ok (graph f)) ∧ g'.Document ["das", "Haus"] ∧ g'.tokens = [.str "s1_1", .str "s1_2"] ∧ LayerIn [] (graph (.mmax, "haus.mmax")) g' ∧
    mergingCli (cliFilesEnv hausFiles hausScheds (fun _ _ g => .ok g)) hausArgs = .ok (some g') := by
  obtain ⟨graph, e, h⟩ := c77_application_partial hausFiles (a := hausArgs) (.inl rfl) hausFilesAre (fun _ _ _ _ => rfl) (strs := ["das", "Haus"]) (by simp) (ids := hausIds) hausText (fun f _ x hx => hausIds_harmless f x hx) (fun f _ f' _ hk x => hausIds_disjoint f.1 f'.1 hk x)
  have tok : ∀ f ∈ hausList, (cliRead hausFiles f.1 f.2).toOption.map DG.tokens = some (graph f).tokens := by
    intro f hf
    rw [e f hf]
    rfl
  have t1 : (graph (.tiger, "haus.xml")).tokens = [.str "s1_1", .str "s1_2"] :=
    Option.some.inj ((tok (.tiger, "haus.xml") (by simp [hausList])).symm.trans (show _ = some [NodeId.str "s1_1", .str "s1_2"] by decide +kernel))
  have t2 : (graph (.rst, "haus.rs3")).tokens = [.str "rst:rst:1_0", .str "rst:rst:1_1"] :=
    Option.some.inj ((tok (.rst, "haus.rs3") (by simp [hausList])).symm.trans (show _ = some [NodeId.str "rst:rst:1_0", .str "rst:rst:1_1"] by decide +kernel))
  have t3 : (graph (.conano, "haus.con")).tokens = [.str "token:1", .str "token:2"] :=
    Option.some.inj ((tok (.conano, "haus.con") (by simp [hausList])).symm.trans (show _ = some [NodeId.str "token:1", .str "token:2"] by decide +kernel))
  have t4 : (graph (.mmax, "haus.mmax")).tokens = [.str "word_1", .str "word_2"] :=
    Option.some.inj ((tok (.mmax, "haus.mmax") (by simp [hausList])).symm.trans (show _ = some [NodeId.str "word_1", .str "word_2"] by decide +kernel))
  obtain ⟨g', f1, f2, f3, -, -, f6, -⟩ := h hausScheds (fun _ _ g => .ok g) emptyValid (by
    intro f hf
    simp only [List.mem_cons, List.not_mem_nil, or_false] at hf
    rcases hf with rfl | rfl | rfl
    · rw [t1, t2]; exact hausSched_valid (by decide) (by decide)
    · rw [t1, t3]; exact hausSched_valid (by decide) (by decide)
    · rw [t1, t4]; exact hausSched_valid (by decide) (by decide))
  exact ⟨graph, g', e, f1, f2.trans t1, f3 [_, _, _] _ [] rfl, f6 .dot .dot (by simp)⟩

/-- the same files, but the noun phrase in the MMAX project has the ID of the NP in the TigerXML file -/
def hausShared : CliFiles := { hausFiles with mmax := fun _ => { hausFiles.mmax "" with file := fun i l => ((hausFiles.mmax "").file i l).map (fun ms => ms.map (fun m => if l = "np" then Dict.put m "id" "s1_500" else m)) } }

/-- **C77 is violated** (shared IDs): IDs are only unique within a file, and the application does not check whether files use the same ones: a markable with the ID of a syntax node silently becomes one node with it, and its label is lost -/
theorem c77_fails_shared_id : ((tigerRead "" "tiger" hausTiger).toOption.bind (fun g => g.nodeAttr (.str "s1_500") "label")) = some (.atom (.str "NP")) ∧
    ((mergingCli (cliFilesEnv hausShared hausScheds (fun _ _ g => .ok g)) hausArgs).toOption.bind (fun g => g.bind (fun g => g.nodeAttr (.str "s1_500") "label"))) = some (.atom (.str "s1_500:np")) ∧
    ((mergingCli (cliFilesEnv hausShared hausScheds (fun _ _ g => .ok g)) hausArgs).toOption.bind (fun g => g.bind (fun g => g.nodeAttr (.str "s1_500") "tiger:cat"))) = some (.atom (.str "NP")) := by decide +kernel

end DG
end Dg
