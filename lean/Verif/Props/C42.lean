import Verif.Lemmas.AnaphoricityRead
import Verif.Props.C08
import Verif.Lemmas.Rst
import Batteries.Lean.Except

/-!
C42: anaphoricity files.
-/

namespace Dg
open Dict
namespace DG

/-- **C42** (reading).  Reading any text succeeds.  The graph has one token node per white space separated word, numbered from 0 in the order of the text, and besides these only the root node(s).  The node of a
word that contains an annotation has the annotated word, annotation type and certainty as attributes and belongs to the layer of annotated tokens; the node of any other word has the word only.
There are edges iff asked for: from the root to each token. -/
theorem c42_read (name ns : String) (connected : Bool) {text : List Char} {ws : List (List Char)} (hw : Words isAsciiSpace text ws) :
    ∃ g, anaphRead name ns connected text = .ok g ∧ g.name = name ∧ g.ns = ns ∧ g.tokens = (List.range ws.length).map (fun (i : Nat) => NodeId.int i) ∧ g.sentences = [] ∧
      (∀ m, g.HasNode m ↔ m = .str "anaphoricity:root_node" ∨ m = .str (ns ++ ":root_node") ∨ ∃ i, i < ws.length ∧ m = .int i) ∧
      (∀ (i : Nat) w, ws[i]? = some w → ∃ at' ls, AnaphToken ns w at' ls ∧ g.NodeIs (.int i) at' ls) ∧
      (∀ u v a, g.EdgeWith u v a → connected = true ∧ u = .str (ns ++ ":root_node") ∧ (∃ i, i < ws.length ∧ v = .int i) ∧ MatchesArgs a [ns, qual ns "token"] []) ∧
      (connected = true → ∀ i, i < ws.length → ∃ a, g.EdgeWith (.str (ns ++ ":root_node")) (.int i) a ∧ MatchesArgs a [ns, qual ns "token"] []) := by
  obtain ⟨g, he, hb⟩ := anaphRead_built name ns connected text
  rw [splitBy_of_words hw] at hb
  have hstart : ∀ m, (anaphStart name ns).HasNode m ↔ m = .str "anaphoricity:root_node" := by
    intro m
    constructor
    · intro h
      have : m ∈ [NodeId.str "anaphoricity:root_node"] := h
      simpa using this
    · rintro rfl
      show NodeId.str "anaphoricity:root_node" ∈ [NodeId.str "anaphoricity:root_node"]
      simp
  have hedge : ∀ u v a, ¬ (anaphStart name ns).EdgeWith u v a := by
    rintro u v a ⟨k, h⟩
    have wf := (inv_anaphStart name ns).1.wf
    have := (mem_edges_iff wf u v k a).2 h
    have e : (anaphStart name ns).edges = [] := rfl
    rw [e] at this
    cases this
  refine ⟨g, he, hb.name, hb.ns, ?_, ?_, ?_, ?_, ?_, ?_⟩
  · rw [hb.tokens, anaphScript_tokens]; rfl
  · rw [hb.sentences, anaphScript_sentences]; rfl
  · intro m
    rw [hb.nodes, hstart]
    refine or_congr Iff.rfl ?_
    constructor
    · rintro ⟨i, hi, hm⟩
      rcases mem_anaphScript.1 hi with rfl | ⟨w, j, hj, rfl | ⟨_, rfl⟩ | rfl⟩
      · exact .inl hm
      · exact .inr ⟨j, (List.getElem?_eq_some_iff.1 hj).1, hm⟩
      · rcases hm with hm | hm
        · exact .inl hm
        · exact .inr ⟨j, (List.getElem?_eq_some_iff.1 hj).1, hm⟩
      · exact hm.elim
    · rintro (rfl | ⟨j, hj, rfl⟩)
      · exact ⟨_, mem_anaphScript.2 (.inl rfl), rfl⟩
      · exact ⟨_, mem_anaphScript.2 (.inr ⟨ws[j], j, by simp [hj], .inl rfl⟩), rfl⟩
  · intro i w hi
    refine ⟨_, _, anaphArgs_spec ns w, ?_⟩
    refine hb.single ?_ (mem_anaphScript.2 (.inr ⟨w, i, hi, .inl rfl⟩)) ?_ ?_ ?_
    · rw [hstart]; intro h; cases h
    · intro ls2 at2 h
      rcases mem_anaphScript.1 h with h | ⟨w', j, hj, h | ⟨_, h⟩ | h⟩
      · cases h
      · injection h with h1 h2 h3
        injection h1 with h1
        have : i = j := by omega
        subst this
        rw [hi] at hj
        obtain rfl := Option.some.inj hj
        exact ⟨h2, h3⟩
      · cases h
      · cases h
    · intro k v h
      rcases mem_anaphScript.1 h with h | ⟨w', j, hj, h | ⟨_, h⟩ | h⟩ <;> cases h
    · exact (anaphToken_ok (anaphArgs_spec ns w)).2.1
  · intro u v a h
    rcases hb.edgeOf u v a h with h | ⟨ls, at', h, hm⟩
    · exact absurd h (hedge u v a)
    · rcases mem_anaphScript.1 h with h | ⟨w', j, hj, h | ⟨hc, h⟩ | h⟩
      · cases h
      · cases h
      · injection h with h1 h2 h3 h4
        subst h1 h2 h3 h4
        exact ⟨hc, rfl, ⟨j, (List.getElem?_eq_some_iff.1 hj).1, rfl⟩, hm⟩
      · cases h
  · intro hc i hi
    exact hb.edgeNew _ _ _ _ (mem_anaphScript.2 (.inr ⟨ws[i], i, by simp [hi], .inr (.inl ⟨hc, rfl⟩)⟩))

/-- every text has words -/
theorem c42_words (text : List Char) : ∃ ws, Words isAsciiSpace text ws ∧ ∀ ws', Words isAsciiSpace text ws' → ws' = ws :=
  ⟨_, splitBy_words _ _, fun _ h => h.unique (splitBy_words _ _)⟩

example : Words isAsciiSpace "Ob es/p? regnet ,\n weiß das/a keiner .\n".toList ["Ob".toList, "es/p?".toList, "regnet".toList, ",".toList, "weiß".toList, "das/a".toList, "keiner".toList, ".".toList] := by
  have := splitBy_words isAsciiSpace "Ob es/p? regnet ,\n weiß das/a keiner .\n".toList
  exact this

example : Annotated "es/p?".toList "es".toList "pleonastic" true := annotated_written (by decide) (x := 'p') (by decide)

example : Unannotated "Das".toList := by decide

/-! ### writing -/

/-- what is written for a token: its string, followed by the annotation if the token is annotated and is the word in question (in upper or lower case) -/
def AnaphPiece (g : DG) (anaphora : List Char) (n : NodeId) (p : List Char) : Prop :=
  ∃ s, g.nodeAttr n (qual g.ns "token") = some (.atom (.str s)) ∧
    ((g.NodeLayer n (.str (qual g.ns "annotated")) ∧ s.toList.map Char.toLower = anaphora ∧ ∃ ty x, g.nodeAttr n (qual g.ns "annotation") = some (.atom (.str ty)) ∧ (x, ty) ∈ anaphLetters ∧
        p = s.toList ++ '/' :: x :: ['?', ' ']) ∨
      (¬ (g.NodeLayer n (.str (qual g.ns "annotated")) ∧ s.toList.map Char.toLower = anaphora) ∧ p = s.toList ++ [' ']))

/-- annotated nodes have a token string and one of the four annotations; tokens have a token string -/
structure AnaphGraph (g : DG) : Prop where
  strings : ∀ n, n ∈ g.tokens ∨ g.NodeLayer n (.str (qual g.ns "annotated")) → ∃ s, g.nodeAttr n (qual g.ns "token") = some (.atom (.str s))
  types : ∀ n, g.NodeLayer n (.str (qual g.ns "annotated")) → ∃ ty x, g.nodeAttr n (qual g.ns "annotation") = some (.atom (.str ty)) ∧ (x, ty) ∈ anaphLetters

theorem anaphIs_ok {g : DG} {n : NodeId} {s : String} {an : List Char} (h : g.nodeAttr n (qual g.ns "token") = some (.atom (.str s))) : g.anaphIs an n = .ok (decide (s.toList.map Char.toLower = an)) := by
  unfold anaphIs getToken
  rw [getAttr_ok.2 h]
  rfl

theorem anaphFilter_ok {g : DG} {an : List Char} {ids : List NodeId} (h : ∀ n ∈ ids, ∃ s, g.nodeAttr n (qual g.ns "token") = some (.atom (.str s))) :
    ∃ r, g.anaphFilter an ids = .ok r ∧ ∀ n, n ∈ r ↔ n ∈ ids ∧ ∀ s, g.nodeAttr n (qual g.ns "token") = some (.atom (.str s)) → s.toList.map Char.toLower = an := by
  induction ids with
  | nil => exact ⟨[], rfl, by simp⟩
  | cons n ids ih =>
    obtain ⟨r, hr, hm⟩ := ih (fun m hm => h m (List.mem_cons_of_mem _ hm))
    obtain ⟨s, hs⟩ := h n (by simp)
    have h1 : ∀ b, (∀ s, g.nodeAttr n (qual g.ns "token") = some (.atom (.str s)) → s.toList.map Char.toLower = b) ↔ s.toList.map Char.toLower = b := by
      intro b
      rw [hs]
      simp
    unfold anaphFilter
    rw [anaphIs_ok hs, hr]
    refine ⟨_, rfl, ?_⟩
    intro m
    by_cases hb : s.toList.map Char.toLower = an
    · simp only [hb, decide_true, if_true]
      rw [List.mem_cons, List.mem_cons, hm]
      constructor
      · rintro (rfl | ⟨h2, h3⟩)
        · exact ⟨.inl rfl, (h1 an).2 hb⟩
        · exact ⟨.inr h2, h3⟩
      · rintro ⟨rfl | h2, h3⟩
        · exact .inl rfl
        · exact .inr ⟨h2, h3⟩
    · simp only [hb, decide_false]
      show m ∈ r ↔ _
      rw [hm, List.mem_cons]
      constructor
      · rintro ⟨h2, h3⟩; exact ⟨.inr h2, h3⟩
      · rintro ⟨rfl | h2, h3⟩
        · exact absurd ((h1 an).1 h3) hb
        · exact ⟨h2, h3⟩

theorem certainty_ne (ns : String) : qual ns "certainty" ≠ "1.0" := qual_ne_plain (by decide)

theorem genAnaphoricity_ok {g : DG} (wf : WF g) (hl : AllLayered g) (ha : AnaphGraph g) {an : List Char} (han : an = ['d', 'a', 's'] ∨ an = ['e', 's']) :
    ∃ ps, g.genAnaphoricity an = .ok ps.flatten ∧ List.Forall₂ (g.AnaphPiece an) g.tokens ps := by
  obtain ⟨ids, hsel, _, _, hids⟩ := selectNodesByLayer_wf wf hl (.one (qual g.ns "annotated"))
  have hids' : ∀ n, n ∈ ids ↔ g.NodeLayer n (.str (qual g.ns "annotated")) := by
    intro n
    rw [hids]
    constructor
    · exact fun h => h.2
    · intro h
      refine ⟨?_, h⟩
      rw [hasNode_some]
      obtain ⟨a, ha, _⟩ := h
      exact ⟨a, ha⟩
  obtain ⟨r, hr, hm⟩ := anaphFilter_ok (an := an) (fun n hn => ha.strings n (.inr ((hids' n).1 hn)))
  have hp : ∀ n ∈ g.tokens, ∃ p, g.anaphPiece r n = .ok p := by
    intro n hn
    obtain ⟨s, hs⟩ := ha.strings n (.inl hn)
    unfold anaphPiece getToken
    rw [getAttr_ok.2 hs]
    by_cases hr : n ∈ r
    · obtain ⟨ty, x, h1, h2⟩ := ha.types n ((hids' n).1 ((hm n).1 hr).1)
      simp only [except_bind_ok, fmtVal, if_pos hr]
      rw [getAttr_ok.2 h1]
      simp only [except_bind_ok]
      rw [annotationLetter_ok.2 ⟨ty, rfl, h2⟩]
      exact ⟨_, rfl⟩
    · simp only [except_bind_ok, fmtVal, if_neg hr]
      exact ⟨_, rfl⟩
  obtain ⟨ps, hps⟩ := mapE_total hp
  refine ⟨ps, ?_, ?_⟩
  · unfold genAnaphoricity
    rw [if_neg (by rcases han with rfl | rfl <;> simp), hsel]
    simp only [hr, except_bind_ok, afterGen, hps]
    rfl
  · refine List.Forall₂.imp ?_ (mapE_ok.1 hps)
    intro n p hnp
    unfold anaphPiece at hnp
    cases hv : g.getToken n with
    | error e => rw [hv] at hnp; cases hnp
    | ok v =>
      rw [hv] at hnp
      simp only [except_bind_ok] at hnp
      cases hf : fmtVal v with
      | error e => rw [hf] at hnp; cases hnp
      | ok s =>
        rw [hf] at hnp
        simp only [except_bind_ok] at hnp
        obtain ⟨str, rfl, rfl⟩ : ∃ str : String, v = .atom (.str str) ∧ s = str.toList := by
          unfold fmtVal at hf
          split at hf
          · exact ⟨_, rfl, (Except.ok.inj hf).symm⟩
          · cases hf
        have hs : g.nodeAttr n (qual g.ns "token") = some (.atom (.str str)) := getAttr_ok.1 hv
        refine ⟨str, hs, ?_⟩
        have hiff : n ∈ r ↔ g.NodeLayer n (.str (qual g.ns "annotated")) ∧ str.toList.map Char.toLower = an := by
          rw [hm, hids', hs]
          simp
        by_cases hr : n ∈ r
        · left
          obtain ⟨h1, h2⟩ := hiff.1 hr
          obtain ⟨ty, x, h3, h4⟩ := ha.types n h1
          rw [if_pos hr, getAttr_ok.2 h3] at hnp
          simp only [except_bind_ok] at hnp
          rw [annotationLetter_ok.2 ⟨ty, rfl, h4⟩] at hnp
          simp only [except_bind_ok, if_neg (certainty_ne g.ns)] at hnp
          exact ⟨h1, h2, ty, x, h3, h4, (Except.ok.inj hnp).symm⟩
        · right
          rw [if_neg hr] at hnp
          exact ⟨fun h => hr (hiff.2 h), (Except.ok.inj hnp).symm⟩

/-- **C42** (writing).  For a graph with anaphoricity annotations, the text consists of the token strings in order, each followed by a blank.  Annotated occurrences of the given word are followed by a slash, the
letter of their annotation and a question mark (whether or not the annotation is certain). -/
theorem c42_write (g : DG) (hr : Reachable g) (hl : AllLayered g) (ha : AnaphGraph g) {anaphora : List Char} (han : anaphora = ['d', 'a', 's'] ∨ anaphora = ['e', 's']) :
    ∃ ps, g.genAnaphoricity anaphora = .ok ps.flatten ∧ List.Forall₂ (g.AnaphPiece anaphora) g.tokens ps := genAnaphoricity_ok hr.inv.wf hl ha han

/-- a graph with three tokens, two of which are annotated -/
def sampleAnaph : DG := (init "" "a" none).run [
  .addNode (.str "t1") (.set [.str "a", .str "a:annotated"]) .none [("a:token", .atom (.str "Das")), ("a:annotation", .atom (.str "abstract")), ("a:certainty", .atom (.str "1.0"))],
  .addNode (.str "t2") (.set [.str "a"]) .none [("a:token", .atom (.str "regnet"))],
  .addNode (.str "t3") (.set [.str "a:annotated"]) .none [("a:token", .atom (.str "es")), ("a:annotation", .atom (.str "pleonastic"))],
  .setTokens [.str "t1", .str "t2", .str "t3"]]

theorem sampleAnaph_reachable : Reachable sampleAnaph := ⟨"", "a", none, _, by decide, rfl⟩

/-- the sample satisfies the hypotheses of `c42_write` -/
example : Reachable sampleAnaph ∧ AllLayered sampleAnaph ∧ AnaphGraph sampleAnaph ∧ sampleAnaph.genAnaphoricity "das".toList = .ok "Das/a? regnet es ".toList ∧
    sampleAnaph.genAnaphoricity "es".toList = .ok "Das regnet es/p? ".toList := by
  have wf := sampleAnaph_reachable.inv.wf
  have hlay : ∀ n, sampleAnaph.NodeLayer n (.str "a:annotated") → n = .str "t1" ∨ n = .str "t3" := by
    rintro n ⟨a, ha, xs, hx, hm⟩
    have h := (mem_nodes_iff wf _ _).2 ha
    have key : ∀ p ∈ sampleAnaph.nodes, p.1 = .str "t1" ∨ p.1 = .str "t3" ∨ (match find p.2 "layers" with | some (.set xs) => decide (Atom.str "a:annotated" ∉ xs) | _ => false) = true := by decide +kernel
    rcases key _ h with h | h | h
    · exact .inl h
    · exact .inr h
    · dsimp only at h
      rw [hx] at h
      exact absurd hm (of_decide_eq_true h)
  refine ⟨sampleAnaph_reachable, allLayered_of_check wf (by decide +kernel), ⟨?_, ?_⟩, by decide +kernel, by decide +kernel⟩
  · rintro n (h | h)
    · have : n ∈ [NodeId.str "t1", .str "t2", .str "t3"] := h
      simp only [List.mem_cons, List.not_mem_nil, or_false] at this
      rcases this with rfl | rfl | rfl
      · exact ⟨"Das", by decide +kernel⟩
      · exact ⟨"regnet", by decide +kernel⟩
      · exact ⟨"es", by decide +kernel⟩
    · rcases hlay n h with rfl | rfl
      · exact ⟨"Das", by decide +kernel⟩
      · exact ⟨"es", by decide +kernel⟩
  · intro n h
    rcases hlay n h with rfl | rfl
    · exact ⟨"abstract", 'a', by decide +kernel, by decide⟩
    · exact ⟨"pleonastic", 'p', by decide +kernel, by decide⟩

/-- Any other word is refused. -/
theorem c42_refused (g : DG) {anaphora : List Char} (han : anaphora ≠ ['d', 'a', 's'] ∧ anaphora ≠ ['e', 's']) : g.genAnaphoricity anaphora = .error .assertion := by
  unfold genAnaphoricity
  rw [if_pos han]

/-! ### round trip -/

theorem anaphToken_word {ns : String} {w : List Char} {at' : Attrs} {ls : List String} (h : AnaphToken ns w at' ls) (hw : w ≠ [] ∧ ∀ c ∈ w, isAsciiSpace c = false) :
    ∃ s, find at' (qual ns "token") = some (.atom (.str (String.ofList s))) ∧ s ≠ [] ∧ (∀ c ∈ s, isAsciiSpace c = false) ∧ Unannotated s ∧ (qual ns "annotated" ∈ ls → s ∈ anaphors) ∧
      ((qual ns "annotated" ∉ ls ∧ find at' (qual ns "annotation") = none) ∨ (qual ns "annotated" ∈ ls ∧ ∃ ty x, find at' (qual ns "annotation") = some (.atom (.str ty)) ∧ (x, ty) ∈ anaphLetters)) := by
  have q : ∀ a b : String, a ≠ b → qual ns a ≠ qual ns b := fun a b h e => h (qual_inj e)
  have qn : qual ns "annotated" ≠ ns := by
    intro h
    have := congrArg (fun s : String => s.toList.length) h
    simp [qual, String.toList_append] at this
  have ql : "label" ≠ qual ns "annotation" := fun h => qual_ne_plain (by decide) h.symm
  cases h with
  | plain hu =>
    refine ⟨w, by simp [Dict.find], hw.1, hw.2, hu, ?_, .inl ⟨?_, ?_⟩⟩
    · simp [qn, q "annotated" "token" (by decide)]
    · simp [qn, q "annotated" "token" (by decide)]
    · simp [Dict.find, q "token" "annotation" (by decide), ql]
  | annotated hann =>
    rename_i t ty u
    obtain ⟨k, ⟨ht, x, r, hx, _⟩, _⟩ := hann
    have hsp : ∀ c ∈ t, isAsciiSpace c = false := by
      simp only [anaphors, List.mem_cons, List.not_mem_nil, or_false] at ht
      rcases ht with rfl | rfl | rfl | rfl <;> decide
    have hne : t ≠ [] := by
      simp only [anaphors, List.mem_cons, List.not_mem_nil, or_false] at ht
      rcases ht with rfl | rfl | rfl | rfl <;> simp
    refine ⟨t, by simp [Dict.find, q "annotation" "token" (by decide), q "certainty" "token" (by decide)], hne, hsp, unannotated_anaphor ht, fun _ => ht, .inr ⟨by simp, ty, x, by simp [Dict.find], hx⟩⟩

theorem piece_words {g : DG} {an : List Char} {n : NodeId} {p : List Char} (h : g.AnaphPiece an n p) : ∃ q, p = q ++ [' '] := by
  obtain ⟨s, _, ⟨_, _, ty, x, _, _, rfl⟩ | ⟨_, rfl⟩⟩ := h
  · exact ⟨s.toList ++ '/' :: x :: ['?'], by simp⟩
  · exact ⟨_, rfl⟩

/-- **C42** (round trip; partial).  Reading any text, writing the graph and reading the result gives the same tokens with the same strings and, for the word that was chosen for writing, the same annotations.
Missing: the certainty of annotations (they are always written as uncertain) and the annotations of the other word; text around an annotation within a word is lost already on reading. -/
theorem c42_roundtrip_partial (name ns : String) (connected : Bool) (text : List Char) {anaphora : List Char} (han : anaphora = ['d', 'a', 's'] ∨ anaphora = ['e', 's']) :
    ∃ g text' g', anaphRead name ns connected text = .ok g ∧ g.genAnaphoricity anaphora = .ok text' ∧ anaphRead name ns connected text' = .ok g' ∧ g'.tokens = g.tokens ∧
      ∀ n ∈ g.tokens, ∃ s : String, g.nodeAttr n (qual ns "token") = some (.atom (.str s)) ∧ g'.nodeAttr n (qual ns "token") = some (.atom (.str s)) ∧
        (s.toList.map Char.toLower = anaphora → g'.nodeAttr n (qual ns "annotation") = g.nodeAttr n (qual ns "annotation") ∧
          (g.nodeAttr n (qual ns "annotation") ≠ none → g'.nodeAttr n (qual ns "certainty") = some (.atom (.str "0.5")))) ∧
        (s.toList.map Char.toLower ≠ anaphora → g'.nodeAttr n (qual ns "annotation") = none) := by
  have hwords := splitBy_words isAsciiSpace text
  obtain ⟨g, he, _, hns, htok, _, hnodes, htokens, _, _⟩ := c42_read name ns connected hwords
  obtain ⟨g0, he0, hb⟩ := anaphRead_built name ns connected text
  obtain rfl : g = g0 := Except.ok.inj (he.symm.trans he0)
  generalize splitBy isAsciiSpace text = ws at *
  have hq : ∀ a, qual ns a ≠ "layers" := fun a => qual_layers ns a
  have htok' : ∀ n, n ∈ g.tokens → ∃ (i : Nat) (w : List Char), ws[i]? = some w ∧ n = .int i := by
    intro n hn
    rw [htok] at hn
    obtain ⟨i, hi, rfl⟩ := List.mem_map.1 hn
    have hi := List.mem_range.1 hi
    exact ⟨i, ws[i], by simp [hi], rfl⟩
  -- annotated nodes are tokens
  have hann : ∀ n, g.NodeLayer n (.str (qual ns "annotated")) → n ∈ g.tokens := by
    intro n hn
    rcases (hb.layer n _).1 hn with h | ⟨i, hi, hg⟩ | ⟨_, _, h⟩
    · exfalso
      obtain ⟨a, ha, hl⟩ := h
      have hn : (anaphStart name ns).HasNode n := (hasNode_some _ _).2 ⟨a, ha⟩
      have : n ∈ [NodeId.str "anaphoricity:root_node"] := hn
      obtain rfl : n = .str "anaphoricity:root_node" := by simpa using this
      have e : (anaphStart name ns).nodeAttrs (.str "anaphoricity:root_node") = some [("layers", .set [.str "anaphoricity"]), ("metadata", .dict [])] := rfl
      rw [e] at ha
      obtain rfl := Option.some.inj ha
      obtain ⟨xs, e, hl⟩ := hl
      have e' : (Val.set [.str "anaphoricity"]) = .set xs := Option.some.inj e
      injection e' with e'
      subst e'
      simp only [List.mem_singleton] at hl
      injection hl with hl
      exact qual_ne_plain (by decide) hl
    · rcases mem_anaphScript.1 hi with rfl | ⟨w, j, hj, rfl | ⟨_, rfl⟩ | rfl⟩
      · exfalso
        have := hg.2
        simp only [List.map_cons, List.map_nil, List.mem_singleton] at this
        injection this with this
        have := congrArg (fun s : String => s.toList.length) this
        simp [qual, String.toList_append] at this
      · obtain rfl : n = .int j := hg.1
        rw [htok]
        exact List.mem_map.2 ⟨j, List.mem_range.2 (List.getElem?_eq_some_iff.1 hj).1, rfl⟩
      · exact hg.elim
      · exact hg.elim
    · exfalso
      injection h with h
      have := congrArg (fun s : String => s.toList.length) h
      have e : (anaphStart name ns).ns = ns := rfl
      rw [e] at this
      simp [qual, String.toList_append] at this
  have hinfo : ∀ n ∈ g.tokens, ∃ s, g.nodeAttr n (qual ns "token") = some (.atom (.str (String.ofList s))) ∧ s ≠ [] ∧ (∀ c ∈ s, isAsciiSpace c = false) ∧ Unannotated s ∧
      (g.NodeLayer n (.str (qual ns "annotated")) → s ∈ anaphors) ∧
      ((¬ g.NodeLayer n (.str (qual ns "annotated")) ∧ g.nodeAttr n (qual ns "annotation") = none) ∨
        (g.NodeLayer n (.str (qual ns "annotated")) ∧ ∃ ty x, g.nodeAttr n (qual ns "annotation") = some (.atom (.str ty)) ∧ (x, ty) ∈ anaphLetters)) := by
    intro n hn
    obtain ⟨i, w, hi, rfl⟩ := htok' n hn
    obtain ⟨at', ls, h1, h2, h3⟩ := htokens i w hi
    obtain ⟨s, hs, h4, h5, h6, h7, h8⟩ := anaphToken_word h1 (hwords.mem w (List.mem_of_getElem? hi))
    have hl : g.NodeLayer (.int i) (.str (qual ns "annotated")) ↔ qual ns "annotated" ∈ ls := by rw [h3]; simp
    rw [hl, h2 _ (hq _), h2 _ (hq _)]
    exact ⟨s, hs, h4, h5, h6, h7, h8⟩
  have ha : AnaphGraph g := by
    constructor
    · intro n hn
      rw [hns] at hn ⊢
      obtain ⟨s, h, _⟩ := hinfo n (hn.elim id (hann n))
      exact ⟨_, h⟩
    · intro n hn
      rw [hns] at hn ⊢
      obtain ⟨s, _, _, _, _, _, h⟩ := hinfo n (hann n hn)
      rcases h with ⟨h, _⟩ | ⟨_, h⟩
      · exact absurd hn h
      · exact h
  have hl : AllLayered g := by
    intro n a h
    obtain ⟨xs, h1, h2, _⟩ := hb.layered n a h
    exact ⟨xs, h1, h2⟩
  obtain ⟨ps, hgen, hps⟩ := genAnaphoricity_ok hb.inv.wf hl ha han
  -- the words of the new text
  have hqs : ∃ qs : List (List Char), ps = qs.map (fun q => q ++ [' ']) := by
    have : ∀ p ∈ ps, ∃ q, p = q ++ [' '] := by
      intro p hp
      obtain ⟨n, _, h⟩ := forall₂_mem_right hps hp
      exact piece_words h
    clear hps hgen
    induction ps with
    | nil => exact ⟨[], rfl⟩
    | cons p ps ih =>
      obtain ⟨q, rfl⟩ := this p (by simp)
      obtain ⟨qs, rfl⟩ := ih (fun p hp => this p (List.mem_cons_of_mem _ hp))
      exact ⟨q :: qs, rfl⟩
  obtain ⟨qs, rfl⟩ := hqs
  rw [List.forall₂_map_right_iff] at hps
  have hpiece : ∀ n ∈ g.tokens, ∀ q, g.AnaphPiece anaphora n (q ++ [' ']) → ∃ s, g.nodeAttr n (qual ns "token") = some (.atom (.str (String.ofList s))) ∧ q ≠ [] ∧ (∀ c ∈ q, isAsciiSpace c = false) ∧
      ((s.map Char.toLower = anaphora ∧ ∃ ty, g.nodeAttr n (qual ns "annotation") = some (.atom (.str ty)) ∧ Annotated q s ty true) ∨
       (Unannotated q ∧ q = s ∧ (s.map Char.toLower = anaphora → g.nodeAttr n (qual ns "annotation") = none))) := by
    intro n hn q hp
    obtain ⟨s, hs, h1, h2, h3, h4, h5⟩ := hinfo n hn
    obtain ⟨s', hs', hcase⟩ := hp
    rw [hns, hs] at hs'
    obtain rfl : String.ofList s = s' := by injection hs' with h; injection h with h; injection h
    rw [String.toList_ofList, hns] at hcase
    refine ⟨s, hs, ?_⟩
    rcases hcase with ⟨c1, c2, ty, x, c3, c4, c5⟩ | ⟨c1, c2⟩
    · have e : q = s ++ '/' :: x :: ['?'] := by
        have : q ++ [' '] = (s ++ '/' :: x :: ['?']) ++ [' '] := by rw [c5]; simp
        exact List.append_cancel_right this
      subst e
      have hx : isAsciiSpace x = false := by
        simp only [anaphLetters, List.mem_cons, List.not_mem_nil, or_false, Prod.mk.injEq] at c4
        rcases c4 with ⟨rfl, _⟩ | ⟨rfl, _⟩ | ⟨rfl, _⟩ | ⟨rfl, _⟩ <;> decide
      refine ⟨by simp, ?_, .inl ⟨c2, ty, c3, annotated_written (h4 c1) c4⟩⟩
      intro c hc
      simp only [List.mem_append, List.mem_cons, List.not_mem_nil, or_false] at hc
      rcases hc with hc | rfl | rfl | rfl
      · exact h2 c hc
      · decide
      · exact hx
      · decide
    · obtain rfl : q = s := List.append_cancel_right c2
      refine ⟨h1, h2, .inr ⟨h3, rfl, ?_⟩⟩
      intro hlow
      rcases h5 with ⟨_, h5⟩ | ⟨h5, _⟩
      · exact h5
      · exact absurd ⟨h5, hlow⟩ c1
  have hwords' : Words isAsciiSpace (qs.map (fun q => q ++ [' '])).flatten qs := by
    rw [← List.flatMap_def]
    apply words_flatten (by decide)
    intro q hq
    obtain ⟨n, hn, h⟩ := forall₂_mem_right hps hq
    obtain ⟨s, _, h1, h2, _⟩ := hpiece n hn q h
    exact ⟨h1, h2⟩
  obtain ⟨g', he', _, hns', htok2, _, _, htokens', _, _⟩ := c42_read name ns connected hwords'
  have hlen : ws.length = qs.length := by
    have := hps.length_eq
    rw [htok] at this
    simpa using this
  refine ⟨g, _, g', he, hgen, he', by rw [htok2, htok, hlen], ?_⟩
  intro n hn
  obtain ⟨i, w, hi, rfl⟩ := htok' n hn
  have hilt : i < qs.length := by rw [← hlen]; exact (List.getElem?_eq_some_iff.1 hi).1
  have hq' : qs[i]? = some qs[i] := by simp [hilt]
  have hpi : g.AnaphPiece anaphora (.int i) (qs[i] ++ [' ']) := by
    have hlt : i < g.tokens.length := by rw [htok]; simp; omega
    have := List.Forall₂.get hps hlt hilt
    have e : g.tokens.get ⟨i, hlt⟩ = .int i := by
      simp [htok]
    rw [e] at this
    exact this
  obtain ⟨s, hs, h1, h2, hcase⟩ := hpiece _ hn _ hpi
  obtain ⟨at', ls, hA, hN, _⟩ := htokens' i _ hq'
  have q : ∀ a b : String, a ≠ b → qual ns a ≠ qual ns b := fun a b h e => h (qual_inj e)
  have ql : "label" ≠ qual ns "annotation" := fun h => qual_ne_plain (by decide) h.symm
  rw [hN _ (hq _), hN _ (hq _), hN _ (hq _)]
  obtain ⟨rfl, rfl⟩ := hA.args
  refine ⟨String.ofList s, hs, ?_⟩
  rw [String.toList_ofList]
  rcases hcase with ⟨hlow, ty, hty, hann⟩ | ⟨hu, rfl, hnone⟩
  · obtain ⟨e1, e2⟩ := (AnaphToken.annotated (ns := ns) hann).args
    rw [← e2, hty]
    refine ⟨by simp [Dict.find, q "annotation" "token" (by decide), q "certainty" "token" (by decide)], fun _ => ⟨by simp [Dict.find], fun _ => by simp [Dict.find, q "annotation" "certainty" (by decide)]⟩, fun h => absurd hlow h⟩
  · obtain ⟨e1, e2⟩ := (AnaphToken.plain (ns := ns) hu).args
    rw [← e2]
    have en : find [(qual ns "token", Val.atom (.str (String.ofList qs[i]))), ("label", .atom (.str (String.ofList qs[i])))] (qual ns "annotation") = none := by
      simp [Dict.find, q "token" "annotation" (by decide), ql]
    refine ⟨by simp [Dict.find], fun h => ?_, fun _ => en⟩
    rw [en, hnone h]
    exact ⟨rfl, fun h => absurd rfl h⟩

/-- the result of reading, writing and reading again -/
def anaphAgain (text : String) (an : String) : Except PyErr (List (Val × Option Val × Option Val) × List (Val × Option Val × Option Val)) := do
  let view (g : DG) : Except PyErr (List (Val × Option Val × Option Val)) := mapE (fun n => do
    let t ← g.getToken n
    return (t, g.nodeAttr n "a:annotation", g.nodeAttr n "a:certainty")) g.tokens
  let g ← anaphRead "" "a" false text.toList
  let t ← g.genAnaphoricity an.toList
  let g' ← anaphRead "" "a" false t
  let v ← view g
  let v' ← view g'
  return (v, v')

/-- Certain annotations come back as uncertain ones, because the name of the attribute is compared with `'1.0'` instead of its value. -/
theorem c42_fails_certainty : anaphAgain "Das/a" "das" = .ok ([(.atom (.str "Das"), some (.atom (.str "abstract")), some (.atom (.str "1.0")))], [(.atom (.str "Das"), some (.atom (.str "abstract")), some (.atom (.str "0.5")))]) := by
  decide +kernel

/-- The annotations of the other word are lost. -/
theorem c42_fails_other_word : anaphAgain "es/p?" "das" = .ok ([(.atom (.str "es"), some (.atom (.str "pleonastic")), some (.atom (.str "0.5")))], [(.atom (.str "es"), none, none)]) := by
  decide +kernel

/-- What surrounds an annotation within a word is lost on reading (here: the quotation marks, and the beginning of a longer word). -/
theorem c42_fails_context : anaphAgain "\"das/a\" Dies/a" "das" = .ok ([(.atom (.str "das"), some (.atom (.str "abstract")), some (.atom (.str "1.0"))), (.atom (.str "es"), some (.atom (.str "abstract")), some (.atom (.str "1.0")))],
    [(.atom (.str "das"), some (.atom (.str "abstract")), some (.atom (.str "0.5"))), (.atom (.str "es"), none, none)]) := by
  decide +kernel

end DG
end Dg
