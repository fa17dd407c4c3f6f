import Verif.Lemmas.Offsets

/-! C13: token offsets index the document text.  C17: text = tokens joined by blanks. -/

namespace Dg
open Dict
namespace DG

/-- **C17 (whole text)**.  `get_text(docgraph)` succeeds iff every token has a string, and then it is the token strings in document order, joined by
single blanks (`" ".join`). `get_text(docgraph, 0)` and `get_text(docgraph, '')` are the same call. -/
theorem c17_text_is_joined_tokens (g : DG) (fuel : Nat) (text : String) :
    (g.getText fuel none = .ok text ↔ ∃ strs, g.HasTokens strs ∧ text = pyJoin " " strs) ∧
    g.getText fuel (some (.int 0)) = g.getText fuel none ∧ g.getText fuel (some (.str "")) = g.getText fuel none := by
  refine ⟨?_, rfl, rfl⟩
  unfold getText tokens2text
  constructor
  · intro h
    cases h1 : g.tokenStrings g.tokens with
    | error e => rw [h1] at h; simp [bind, Except.bind] at h
    | ok ss =>
      rw [h1] at h
      simp only [bind, Except.bind, Except.ok.injEq] at h
      exact ⟨ss, tokenStrings_ok.1 h1, h.symm⟩
  · rintro ⟨ss, h1, rfl⟩
    rw [tokenStrings_ok.2 h1]; rfl

/-- **C17 (text of a node / of a token list)**.  `tokens2text(docgraph, ids)` joins the strings of the given tokens in the given order, and `get_text(docgraph, n)`
is `tokens2text(docgraph, get_span(docgraph, n))`. -/
theorem c17_text_of_tokens (g : DG) (fuel : Nat) (ids : List NodeId) (n : NodeId) (hn : n.truthy = true) (text : String) :
    (g.tokens2text ids = .ok text ↔ ∃ strs, List.Forall₂ g.TokenStr ids strs ∧ text = pyJoin " " strs) ∧
    (∀ span, g.getSpan fuel n = .ok span → g.getText fuel (some n) = g.tokens2text span) := by
  constructor
  · unfold tokens2text
    constructor
    · intro h
      cases h1 : g.tokenStrings ids with
      | error e => rw [h1] at h; simp [bind, Except.bind] at h
      | ok ss =>
        rw [h1] at h
        simp only [bind, Except.bind, Except.ok.injEq] at h
        exact ⟨ss, tokenStrings_ok.1 h1, h.symm⟩
    · rintro ⟨ss, h1, rfl⟩
      rw [tokenStrings_ok.2 h1]; rfl
  · intro span hs
    unfold getText
    simp only [hn, if_true, hs]
    rfl

/-- **C17 (splitting gives the tokens back)**.  If no token contains a blank, splitting the text of a document with at least one token at blanks gives back exactly
the token strings.  (`str.split(' ')`; if tokens are also non-empty this is the same as `split()`.) -/
theorem c17_split_text (g : DG) (fuel : Nat) (strs : List String) (ht : g.HasTokens strs) (hne : g.tokens ≠ [])
    (hb : ∀ s ∈ strs, ' ' ∉ s.toList) :
    ∃ text, g.getText fuel none = .ok text ∧ pySplit ' ' text = strs := by
  refine ⟨pyJoin " " strs, ((c17_text_is_joined_tokens g fuel _).1).2 ⟨strs, ht, rfl⟩, ?_⟩
  unfold pySplit pyJoin
  rw [String.toList_ofList]
  have hne' : strs.map String.toList ≠ [] := by
    intro h
    rw [List.map_eq_nil_iff] at h
    subst h
    unfold HasTokens at ht
    cases hg : g.tokens with
    | nil => exact hne hg
    | cons => rw [hg] at ht; cases ht
  have := splitChars_join ' ' (strs.map String.toList) hne' (by
    intro x hx
    obtain ⟨s, hs, rfl⟩ := List.mem_map.1 hx
    exact hb s hs)
  have h2 : " ".toList = [' '] := by decide
  rw [h2, this, List.map_map]
  have : (String.ofList ∘ String.toList) = id := by funext s; simp
  rw [this, List.map_id]

/-- **C13**.  If the tokens of a document are pairwise different nodes with token strings `strs`, `add_offsets` succeeds, and afterwards: the slice
`get_text(docgraph)[onset:offset]` of the `i`-th token is its string, the first token starts at 0, each next token starts one character after the end of the
previous one, the last token ends at the end of the text; nothing but the `onset`/`offset` attributes of the tokens changed. -/
theorem c13_offsets_index_text (g : DG) (fuel : Nat) (offsetNs : Option String) (strs : List String) (ht : g.HasTokens strs) (nd : g.tokens.Nodup) :
    ∃ g' text, g.addOffsets offsetNs = (g', none) ∧ g'.getText fuel none = .ok text ∧ g.getText fuel none = .ok text ∧
      (∀ (i : Nat) (t : NodeId) (s : String), g.tokens[i]? = some t → strs[i]? = some s →
        ∃ on off, g'.OffsetsAt (offsetNs.getD g.ns) t on off ∧ pySlice text on off = s ∧ off = on + s.length) ∧
      (∀ t, g.tokens[0]? = some t → ∃ off, g'.OffsetsAt (offsetNs.getD g.ns) t 0 off) ∧
      (∀ (i : Nat) (t u : NodeId), g.tokens[i]? = some t → g.tokens[i + 1]? = some u →
        ∃ on off off', g'.OffsetsAt (offsetNs.getD g.ns) t on off ∧ g'.OffsetsAt (offsetNs.getD g.ns) u (off + 1) off') ∧
      (∀ t, g.tokens.getLast? = some t → ∃ on, g'.OffsetsAt (offsetNs.getD g.ns) t on text.length) ∧
      OnlyOffsetsChanged g g' (offsetNs.getD g.ns) g.tokens := by
  obtain ⟨g', e, o, h⟩ := addOffsetsLoop_spec (offsetNs.getD g.ns) g.tokens g 0 strs ht nd
  have hlen : g.tokens.length = strs.length := List.Forall₂.length_eq ht
  simp only [Nat.zero_add] at h
  refine ⟨g', pyJoin " " strs, e, ((c17_text_is_joined_tokens g' fuel _).1).2 ⟨strs, (o.hasTokens strs).2 ht, rfl⟩,
    ((c17_text_is_joined_tokens g fuel _).1).2 ⟨strs, ht, rfl⟩, ?_, ?_, ?_, ?_, o⟩
  · intro i t s hi hs
    refine ⟨_, _, h i t hi, ?_, ?_⟩
    · have hi' : i < strs.length := (List.getElem?_eq_some_iff.1 hs).1
      have hg : strs.getD i "" = s := by rw [List.getD_eq_getElem?_getD, hs]; rfl
      have := startOf_le_join strs i hi'
      unfold pySlice pyJoin
      rw [String.toList_ofList]
      have he : endOf strs i - startOf strs i = (strs.getD i "").toList.length := by unfold endOf; omega
      rw [he, this, hg]
      simp
    · have hg : strs.getD i "" = s := by rw [List.getD_eq_getElem?_getD, hs]; rfl
      unfold endOf; rw [hg, String.length_toList]
  · intro t hi
    exact ⟨_, by simpa [startOf_zero] using h 0 t hi⟩
  · intro i t u hi hu
    have hlt : i + 1 < strs.length := by rw [← hlen]; exact (List.getElem?_eq_some_iff.1 hu).1
    have hs : startOf strs (i + 1) = endOf strs i + 1 := by
      unfold endOf startOf
      have : strs.take (i + 1) = strs.take i ++ [strs.getD i ""] := by
        rw [List.take_add_one]
        congr 1
        rw [List.getD_eq_getElem?_getD, List.getElem?_eq_getElem (by omega)]
        rfl
      rw [this]
      simp only [List.map_append, List.sum_append, List.map_cons, List.map_nil, List.sum_cons, List.sum_nil]
      omega
    refine ⟨_, _, endOf strs (i + 1), h i t hi, ?_⟩
    rw [← hs]
    exact h (i + 1) u hu
  · intro t hl
    have hne : g.tokens ≠ [] := by intro h0; rw [h0] at hl; simp at hl
    have hi : g.tokens[g.tokens.length - 1]? = some t := by rw [← List.getLast?_eq_getElem?]; exact hl
    have := h _ t hi
    refine ⟨startOf strs (g.tokens.length - 1), ?_⟩
    have hl2 : (pyJoin " " strs).length = endOf strs (g.tokens.length - 1) := by
      rw [hlen, ← length_join strs (by intro h0; subst h0; rw [List.length_nil] at hlen; exact hne (List.length_eq_zero_iff.1 hlen))]
      unfold pyJoin
      simp
    rw [hl2]
    exact this

/-- a small document: two tokens "Guten" and "Tag" -/
def sampleDoc : DG :=
  (DG.init "" "doc" none).run [
    .addNode (.str "t1") (.atom .none) .none [("doc:token", .atom (.str "Guten"))],
    .addNode (.str "t2") (.atom .none) .none [("doc:token", .atom (.str "Tag"))],
    .setTokens [.str "t1", .str "t2"]]

example : sampleDoc.HasTokens ["Guten", "Tag"] ∧ sampleDoc.tokens.Nodup ∧ sampleDoc.tokens ≠ [] ∧
    (∀ s ∈ ["Guten", "Tag"], ' ' ∉ s.toList) ∧ sampleDoc.getText 0 none = .ok "Guten Tag" ∧
    (sampleDoc.addOffsets none).1.getAllOffsets "doc" =
      ([(.str "t1", .atom (.int 0), .atom (.int 5)), (.str "t2", .atom (.int 6), .atom (.int 9))], none) := by
  refine ⟨?_, by decide, by decide, by decide, by decide +kernel, by decide +kernel⟩
  unfold HasTokens
  have : sampleDoc.tokens = [.str "t1", .str "t2"] := by decide
  rw [this]
  exact .cons (by unfold TokenStr; decide) (.cons (by unfold TokenStr; decide) .nil)

/-- why the tokens have to be different: a repeated token keeps only the offsets of its last occurrence -/
example : ((({ sampleDoc with tokens := [.str "t1", .str "t2", .str "t1"] } : DG).addOffsets none).1).nodeAttr (.str "t1") "doc:onset" =
    some (.atom (.int 10)) := by decide +kernel

end DG
end Dg
