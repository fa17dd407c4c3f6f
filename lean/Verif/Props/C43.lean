import Verif.Lemmas.ConanoTree
import Verif.Props.C08
import Batteries.Lean.Except

/-!
C43: Conano documents.
-/

namespace Dg
open Dict
namespace DG

/-- **C43** (node IDs).  Node ID and layers of an element are the documented ones; if an attribute they are made from is missing, there is an error. -/
theorem c43_ids (ns tag : String) (a : Dict String String) (up : Option (Dict String String)) :
    (∀ id ls, conanoId ns tag a up = .ok (id, ls) ↔ ElemName ns up a tag id ls) ∧ ((∃ err, conanoId ns tag a up = .error err) ↔ ¬ ∃ id ls, ElemName ns up a tag id ls) := by
  have key : ∀ id ls, conanoId ns tag a up = .ok (id, ls) ↔ ElemName ns up a tag id ls := by
    have cat : ∀ x y : String, x ++ (":" ++ y) = x ++ ":" ++ y := fun x y => (String.append_assoc ..).symm
    intro id ls
    unfold conanoId xmlAttr qual
    constructor
    · intro h
      split at h
      · rename_i ht
        subst ht
        cases h1 : find a "id" with
        | none => rw [h1] at h; cases h
        | some i =>
          cases h2 : find a "type" with
          | none => rw [h1, h2] at h; cases h
          | some t =>
            rw [h1, h2] at h
            obtain ⟨rfl, rfl⟩ := Prod.mk.inj (Except.ok.inj h)
            have := ElemName.unit (ns := ns) (up := up) h1 h2
            rw [← cat, ← cat] at this
            exact this
      · split at h
        · rename_i _ ht
          subst ht
          cases h1 : find a "id" with
          | none => rw [h1] at h; cases h
          | some i =>
            rw [h1] at h
            obtain ⟨rfl, rfl⟩ := Prod.mk.inj (Except.ok.inj h)
            exact .connective h1
        · split at h
          · rename_i _ _ ht
            subst ht
            obtain ⟨rfl, rfl⟩ := Prod.mk.inj (Except.ok.inj h)
            exact .discourse
          · rename_i h1 h2 h3
            cases up with
            | none => cases h
            | some b =>
              cases h4 : find b "id" with
              | none => simp only [h4] at h; cases h
              | some i =>
                simp only [h4] at h
                obtain ⟨rfl, rfl⟩ := Prod.mk.inj (Except.ok.inj h)
                rw [cat]
                exact .modifier h1 h2 h3 rfl h4
    · intro h
      cases h with
      | unit h1 h2 => rw [if_pos rfl, h1, h2, ← cat, ← cat]; rfl
      | connective h1 => rw [if_neg (by decide), if_pos rfl, h1]; rfl
      | discourse => rw [if_neg (by decide), if_neg (by decide), if_pos rfl]; rfl
      | modifier h1 h2 h3 h4 h5 =>
        rw [if_neg h1, if_neg h2, if_neg h3, h4]
        simp only [h5]
        rw [← cat]
        rfl
  refine ⟨key, ?_⟩
  constructor
  · rintro ⟨err, h⟩ ⟨id, ls, h2⟩
    rw [(key id ls).2 h2] at h
    cases h
  · intro h
    cases hc : conanoId ns tag a up with
    | error e => exact ⟨e, rfl⟩
    | ok r => exact absurd ⟨r.1, r.2, (key _ _).1 hc⟩ h

/-- ID of the root node -/
def conanoRoot (ns : String) : NodeId := .str (ns ++ ":root_node")

/-- the empty document -/
def conanoStart (name ns : String) : DG := { init "" ns none with name := name }

theorem inv_conanoStart (name ns : String) : Inv (conanoStart name ns) ∧ NodesLayered False (conanoStart name ns) := by
  have h := inv_init "" ns none
  have h2 := nodesLayered_init False "" ns none
  exact ⟨⟨⟨h.wf.nodesNodup, h.wf.adjKeys, h.wf.nbrsNodup, h.wf.kdNodup, h.wf.kdNonempty, h.wf.target⟩, ⟨h.attrs.1, h.attrs.2⟩, h.edges⟩, h2⟩

theorem conanoStart_nodes (name ns : String) (m : NodeId) : (conanoStart name ns).HasNode m ↔ m = conanoRoot ns := by
  have : keys (conanoStart name ns).nodes = [conanoRoot ns] := by
    show keys (put [(conanoRoot ns, _)] (conanoRoot ns) _) = _
    rw [keys_put]
    simp [keys]
  unfold HasNode
  rw [this, List.mem_singleton]

theorem conanoStart_edges (name ns : String) (u v : NodeId) : (conanoStart name ns).kd? u v = none := by
  show (find [(conanoRoot ns, ([] : Dict NodeId (Dict Key Attrs)))] u).bind _ = none
  unfold find
  split <;> rfl

theorem conanoStart_noEdge (name ns : String) (u v : NodeId) (a : Attrs) : ¬ (conanoStart name ns).EdgeWith u v a := by
  rintro ⟨k, h⟩
  unfold edgeAttrs at h
  rw [conanoStart_edges] at h
  cases h

theorem conanoStart_attr (name ns : String) (m : NodeId) (k : String) : (conanoStart name ns).nodeAttr m (qual ns k) = none := by
  unfold nodeAttr nodeAttrs
  show (find (put [(conanoRoot ns, [("layers", Val.set [.str ns])])] (conanoRoot ns) [("layers", .set [.str ns]), ("metadata", .dict [])]) m).bind _ = none
  rw [find_put]
  have h1 : qual ns k ≠ "layers" := qual_layers ns k
  have h2 : qual ns k ≠ "metadata" := qual_ne_plain (by decide)
  split
  · show find [("layers", Val.set [.str ns]), ("metadata", .dict [])] (qual ns k) = none
    rw [find_eq_none_iff]
    simp only [keys, List.map_cons, List.map_nil, List.mem_cons, List.not_mem_nil, or_false, not_or]
    exact ⟨h1, h2⟩
  · rename_i h
    rw [show find [(conanoRoot ns, [("layers", Val.set [.str ns])])] m = none by
      rw [find_eq_none_iff]; simp only [keys, List.map_cons, List.map_nil, List.mem_cons, List.not_mem_nil, or_false]; exact fun e => h e.symm]
    rfl

theorem conanoScript_ok {ns : String} {s : List CStep} {n : Nat} (h : ∀ p id ls, .elem p id ls ∈ s → ns ∈ ls) {has : NodeId → Prop} : ScriptOk has (conanoScript ns n s) := by
  apply scriptOk_free
  intro i hi
  rcases (mem_conanoScript s n).1 hi with ⟨p, id, ls, hm, rfl | rfl⟩ | ⟨_, _, _, _, rfl | rfl | rfl⟩
  · exact ⟨List.ne_nil_of_mem (h p id ls hm), by simp [keys]⟩
  · exact ⟨by simp, by simp [edgeType, keys]⟩
  · exact ⟨by simp, by simp [keys]⟩
  · exact ⟨by simp, by simp [edgeType, keys]⟩
  · trivial

theorem conanoRead_built (name : String) {ns : String} {e : CElem} {t : CTree} (h : e.resolve ns none = .ok t) :
    ∃ g, conanoRead name ns false e = .ok g ∧ Built (conanoStart name ns) (conanoScript ns 1 (t.steps (conanoRoot ns))) g := by
  obtain ⟨g, he, hb⟩ := execs_built (conanoScript ns 1 (t.steps (conanoRoot ns))) (inv_conanoStart name ns).1 (inv_conanoStart name ns).2 (conanoScript_ok (steps_layers e none _ t h))
  refine ⟨g, ?_, hb⟩
  have e1 := conanoElem_eq e none (conanoRoot ns) t (conanoStart name ns, 1) rfl h
  rw [show stepped (conanoStart name ns).ns (conanoStart name ns, 1) (t.steps (conanoRoot ns)) = (execs (conanoStart name ns) (conanoScript ns 1 (t.steps (conanoRoot ns))) >>= fun g => pure (g, 1 + (wordsOf (t.steps (conanoRoot ns))).length)) from rfl, he] at e1
  unfold conanoRead
  show (conanoElem none (conanoRoot ns) e (conanoStart name ns, 1) >>= fun st => conanoCheck false e st.1) = _
  rw [e1]
  rfl

theorem conano_token {name ns : String} {s : List CStep} {g : DG} (hb : Built (conanoStart name ns) (conanoScript ns 1 s) g) {j : Nat} {p : NodeId} {w : List Char} (hj : (wordsOf s)[j]? = some (p, w)) :
    g.nodeAttr (conanoTokenId (1 + j)) (qual ns "token") = some (strVal w) := by
  rw [hb.attr _ _ (qual_layers ns _)]
  have : lastWrite (conanoTokenId (1 + j)) (qual ns "token") (conanoScript ns 1 s) = some (strVal w) := by
    refine lastWrite_unique ⟨_, (mem_conanoScript s 1).2 (.inr ⟨j, p, w, hj, .inl rfl⟩), ?_⟩ ?_
    · simp [Instr.write, find]
    · intro i hi v hv
      rcases (mem_conanoScript s 1).1 hi with ⟨p, id, ls, hm, rfl | rfl⟩ | ⟨j', p', w', hj', rfl | rfl | rfl⟩
      · simp [Instr.write, find] at hv
      · cases hv
      · change (if conanoTokenId (1 + j) = conanoTokenId (1 + j') then find [(qual ns "token", strVal w')] (qual ns "token") else none) = some v at hv
        split at hv
        · rename_i h
          have := conanoTokenId_inj h
          have : j = j' := by omega
          subst this
          rw [hj] at hj'
          obtain ⟨_, rfl⟩ := Prod.mk.inj (Option.some.inj hj')
          simp [find] at hv
          exact hv.symm
        · cases hv
      · cases hv
      · cases hv
  rw [this]
  rfl

/-- **C43** (reading).  A document whose elements have the needed attributes can be read (without the check), and only such a document.  The tokens are the words of the text between the tags, in document order.  Each word has
a token node, spanned by the innermost element around it; each element has a node with its layers, dominated by the innermost element around it.  Besides the root node and the edges mentioned there is nothing else. -/
theorem c43_read (name ns : String) (e : CElem) (t : CTree) (hr : e.resolve ns none = .ok t) :
    ∃ g, conanoRead name ns false e = .ok g ∧ g.name = name ∧ g.ns = ns ∧ g.sentences = [] ∧
      g.tokens = (List.range' 1 (wordsOf (t.steps (conanoRoot ns))).length).map conanoTokenId ∧
      (wordsOf (t.steps (conanoRoot ns))).map Prod.snd = e.pieces.flatMap splitWs ∧
      (∀ m, g.HasNode m ↔ m = conanoRoot ns ∨ m ∈ g.tokens ∨ ∃ p id ls, .elem p id ls ∈ t.steps (conanoRoot ns) ∧ m = .str id) ∧
      (∀ (j : Nat) (p : NodeId) (w : List Char), (wordsOf (t.steps (conanoRoot ns)))[j]? = some (p, w) →
        g.TokenStr (conanoTokenId (1 + j)) (String.ofList w) ∧ g.NodeLayer (conanoTokenId (1 + j)) (.str (qual ns "token")) ∧ ∃ a, g.EdgeWith p (conanoTokenId (1 + j)) a ∧ MatchesArgs a [ns] (edgeType "spans")) ∧
      (∀ p id ls, .elem p id ls ∈ t.steps (conanoRoot ns) → (∀ l ∈ ls, g.NodeLayer (.str id) (.str l)) ∧ ∃ a, g.EdgeWith p (.str id) a ∧ MatchesArgs a [ns] (edgeType "dominates")) ∧
      (∀ u v a, g.EdgeWith u v a → (∃ id ls, .elem u id ls ∈ t.steps (conanoRoot ns) ∧ v = .str id ∧ MatchesArgs a [ns] (edgeType "dominates")) ∨
        ∃ (j : Nat) (w : List Char), (wordsOf (t.steps (conanoRoot ns)))[j]? = some (u, w) ∧ v = conanoTokenId (1 + j) ∧ MatchesArgs a [ns] (edgeType "spans")) := by
  obtain ⟨g, he, hb⟩ := conanoRead_built name hr
  have hmem := fun i => mem_conanoScript (ns := ns) (i := i) (t.steps (conanoRoot ns)) 1
  have htok : g.tokens = (List.range' 1 (wordsOf (t.steps (conanoRoot ns))).length).map conanoTokenId := by
    rw [hb.tokens, conanoScript_tokens]; rfl
  refine ⟨g, he, hb.name, hb.ns, by rw [hb.sentences, conanoScript_sentences]; rfl, htok, steps_words e none _ t hr, ?_, ?_, ?_, ?_⟩
  · intro m
    rw [hb.nodes, conanoStart_nodes, htok]
    have hin : ∀ j : Nat, j < (wordsOf (t.steps (conanoRoot ns))).length → conanoTokenId (1 + j) ∈ (List.range' 1 (wordsOf (t.steps (conanoRoot ns))).length).map conanoTokenId :=
      fun j hj => List.mem_map.2 ⟨_, List.mem_range'_1.2 ⟨by omega, by omega⟩, rfl⟩
    have hpar : ∀ p : NodeId, (p ∈ [conanoRoot ns] ∨ ∃ i ∈ idsOf (t.steps (conanoRoot ns)), p = .str i) → p = conanoRoot ns ∨ ∃ q id ls, .elem q id ls ∈ t.steps (conanoRoot ns) ∧ p = .str id := by
      rintro p (h | ⟨i, h, rfl⟩)
      · exact .inl (List.mem_singleton.1 h)
      · obtain ⟨q, ls, h⟩ := mem_idsOf.1 h
        exact .inr ⟨q, i, ls, h, rfl⟩
    obtain ⟨pa, pb⟩ := (earlier_steps (p := conanoRoot ns) (a := [conanoRoot ns]) (by simp) t).parents
    constructor
    · rintro (h | ⟨i, hi, hm⟩)
      · exact .inl h
      · rcases (hmem i).1 hi with ⟨p, id, ls, hs, rfl | rfl⟩ | ⟨j, p, w, hj, rfl | rfl | rfl⟩
        · exact .inr (.inr ⟨p, id, ls, hs, hm⟩)
        · rcases hm with rfl | rfl
          · rcases hpar _ (pa _ _ _ hs) with h | h
            · exact .inl h
            · exact .inr (.inr h)
          · exact .inr (.inr ⟨p, id, ls, hs, rfl⟩)
        · obtain rfl : m = _ := hm
          exact .inr (.inl (hin j (List.getElem?_eq_some_iff.1 hj).1))
        · rcases hm with rfl | rfl
          · rcases hpar _ (pb _ w (mem_wordsOf.1 (List.mem_of_getElem? hj))) with h | h
            · exact .inl h
            · exact .inr (.inr h)
          · exact .inr (.inl (hin j (List.getElem?_eq_some_iff.1 hj).1))
        · exact hm.elim
    · rintro (h | h | ⟨p, id, ls, hs, rfl⟩)
      · exact .inl h
      · obtain ⟨k, hk, rfl⟩ := List.mem_map.1 h
        obtain ⟨h1, h2⟩ := List.mem_range'_1.1 hk
        obtain ⟨x, hx⟩ : ∃ x, (wordsOf (t.steps (conanoRoot ns)))[k - 1]? = some x := ⟨_, List.getElem?_eq_getElem (by omega)⟩
        refine .inr ⟨_, (hmem _).2 (.inr ⟨k - 1, x.1, x.2, hx, .inl rfl⟩), ?_⟩
        show conanoTokenId k = conanoTokenId (1 + (k - 1))
        congr 1
        omega
      · exact .inr ⟨_, (hmem _).2 (.inl ⟨p, id, ls, hs, .inl rfl⟩), rfl⟩
  · intro j p w hj
    refine ⟨?_, ?_, ?_⟩
    · unfold TokenStr
      rw [hb.ns]
      exact conano_token hb hj
    · rw [hb.layer]
      exact .inr (.inl ⟨_, (hmem _).2 (.inr ⟨j, p, w, hj, .inl rfl⟩), rfl, by simp⟩)
    · exact hb.edgeNew _ _ _ _ ((hmem _).2 (.inr ⟨j, p, w, hj, .inr (.inl rfl)⟩))
  · intro p id ls hs
    refine ⟨?_, hb.edgeNew _ _ _ _ ((hmem _).2 (.inl ⟨p, id, ls, hs, .inr rfl⟩))⟩
    intro l hl
    rw [hb.layer]
    exact .inr (.inl ⟨_, (hmem _).2 (.inl ⟨p, id, ls, hs, .inl rfl⟩), rfl, List.mem_map.2 ⟨l, hl, rfl⟩⟩)
  · intro u v a h
    rcases hb.edgeOf u v a h with h | ⟨ls, at', h, hm⟩
    · exact absurd h (conanoStart_noEdge name ns u v a)
    · rcases (hmem _).1 h with ⟨p, id, ls, hs, h | h⟩ | ⟨j, p, w, hj, h | h | h⟩
      · cases h
      · injection h with h1 h2 h3 h4
        subst h1 h2 h3 h4
        exact .inl ⟨id, ls, hs, rfl, hm⟩
      · cases h
      · injection h with h1 h2 h3 h4
        subst h1 h2 h3 h4
        exact .inr ⟨j, w, hj, rfl, hm⟩
      · cases h

/-- **C43** (missing attributes).  A document can be read only if its elements have the needed attributes. -/
theorem c43_missing_attribute (name ns : String) (check : Bool) (e : CElem) (g : DG) (h : conanoRead name ns check e = .ok g) : ∃ t, e.resolve ns none = .ok t := by
  unfold conanoRead at h
  change (conanoElem none (conanoRoot ns) e (conanoStart name ns, 1) >>= fun st => conanoCheck check e st.1) = _ at h
  cases h1 : conanoElem none (conanoRoot ns) e (conanoStart name ns, 1) with
  | error _ => rw [h1] at h; cases h
  | ok st => exact conanoElem_fails e none (conanoRoot ns) (conanoStart name ns, 1) st rfl h1

/-! ### the check -/

theorem conanoCompare_spec (g : DG) : ∀ (ws : List (List Char)) (i : Nat), (∃ b, conanoCompare g i ws = .ok b) →
    conanoCompare g i ws = .ok true ∧ ∀ (j : Nat) (w : List Char), ws[j]? = some w → ∃ t, g.tokens[i + j]? = some t ∧ g.nodeAttr t (qual g.ns "token") = some (strVal w)
  | [], i, _ => ⟨rfl, by simp⟩
  | w :: ws, i, ⟨b, h⟩ => by
    unfold conanoCompare at h ⊢
    cases ht : g.tokens[i]? with
    | none => rw [ht] at h; cases h
    | some t =>
      rw [ht] at h
      change (g.getAttr t (qual g.ns "token") >>= fun v => if v = strVal w then conanoCompare g (i + 1) ws else .error .index) = _ at h
      cases hv : g.getAttr t (qual g.ns "token") with
      | error _ => rw [hv] at h; cases h
      | ok v =>
        rw [hv] at h
        change (if v = strVal w then conanoCompare g (i + 1) ws else .error .index) = _ at h
        split at h
        · rename_i hvw
          subst hvw
          obtain ⟨h1, h2⟩ := conanoCompare_spec g ws (i + 1) ⟨b, h⟩
          refine ⟨?_, ?_⟩
          · show (g.getAttr t (qual g.ns "token") >>= fun v => if v = strVal w then conanoCompare g (i + 1) ws else .error .index) = _
            rw [hv]
            show (if strVal w = strVal w then conanoCompare g (i + 1) ws else .error .index) = _
            rw [if_pos rfl, h1]
          · intro j w' hj
            cases j with
            | zero =>
              obtain rfl : w = w' := Option.some.inj hj
              exact ⟨t, ht, getAttr_ok.1 hv⟩
            | succ j =>
              have := h2 j w' hj
              rw [show i + (j + 1) = i + 1 + j by omega]
              exact this
        · cases h

theorem conanoCompare_ok (g : DG) : ∀ (ws : List (List Char)) (i : Nat), (∀ (j : Nat) (w : List Char), ws[j]? = some w → ∃ t, g.tokens[i + j]? = some t ∧ g.nodeAttr t (qual g.ns "token") = some (strVal w)) → conanoCompare g i ws = .ok true
  | [], i, _ => rfl
  | w :: ws, i, h => by
    obtain ⟨t, h1, h2⟩ := h 0 w rfl
    rw [Nat.add_zero] at h1
    unfold conanoCompare
    rw [h1]
    show (g.getAttr t (qual g.ns "token") >>= fun v => if v = strVal w then conanoCompare g (i + 1) ws else .error .index) = _
    rw [getAttr_ok.2 h2]
    show (if strVal w = strVal w then conanoCompare g (i + 1) ws else .error .index) = _
    rw [if_pos rfl]
    refine conanoCompare_ok g ws (i + 1) ?_
    intro j w' hj
    have := h (j + 1) w' hj
    rw [show i + 1 + j = i + (j + 1) by omega]
    exact this

theorem strVal_inj {a b : List Char} (h : strVal a = strVal b) : a = b := by
  unfold strVal at h
  injection h with h
  injection h with h
  exact String.ofList_injective h

/-- **C43** (the check).  With the check, which is the default, a document is accepted exactly if it can be read without and the tokens are the words of its plain text, separated by ASCII white space; otherwise there is an error.
The graph is the same. -/
theorem c43_check (name ns : String) (e : CElem) (g : DG) :
    conanoRead name ns true e = .ok g ↔ conanoRead name ns false e = .ok g ∧ Words isAsciiSpace (plainText e) (e.pieces.flatMap splitWs) := by
  have hfun : e.pieces.flatMap splitWs = e.pieces.flatMap (splitBy isUniSpace) := by
    congr 1
    funext s
    exact splitWs_splitBy s
  have hiff : Words isAsciiSpace (plainText e) (e.pieces.flatMap splitWs) ↔ splitBy isAsciiSpace (plainText e) = e.pieces.flatMap splitWs :=
    ⟨fun h => splitBy_of_words h, fun h => h ▸ splitBy_words _ _⟩
  have main : ∀ g, conanoRead name ns false e = .ok g → (conanoCheck true e g = .ok g ↔ splitBy isAsciiSpace (plainText e) = e.pieces.flatMap splitWs) := by
    intro g hg
    obtain ⟨t, ht⟩ := c43_missing_attribute name ns false e g hg
    obtain ⟨g', hg', hb⟩ := conanoRead_built name ht
    obtain rfl : g' = g := Except.ok.inj (hg'.symm.trans hg)
    have htok : g'.tokens = (List.range' 1 (wordsOf (t.steps (conanoRoot ns))).length).map conanoTokenId := by
      rw [hb.tokens, conanoScript_tokens]; rfl
    have hw := steps_words e none (conanoRoot ns) t ht
    have hget : ∀ j : Nat, (∀ (w : List Char), (e.pieces.flatMap splitWs)[j]? = some w → ∃ t, g'.tokens[j]? = some t ∧ g'.nodeAttr t (qual ns "token") = some (strVal w)) := by
      intro j w hj
      rw [← hw, List.getElem?_map] at hj
      cases hx : (wordsOf (t.steps (conanoRoot ns)))[j]? with
      | none => rw [hx] at hj; cases hj
      | some x =>
        rw [hx] at hj
        obtain rfl : x.2 = w := Option.some.inj hj
        refine ⟨conanoTokenId (1 + j), ?_, conano_token hb hx⟩
        have := (List.getElem?_eq_some_iff.1 hx).1
        rw [htok, List.getElem?_map, List.getElem?_range' this, Nat.one_mul]
        rfl
    have hns : g'.ns = ns := hb.ns
    constructor
    · intro h
      have hv : ∃ b, conanoCompare g' 0 (splitBy isAsciiSpace (plainText e)) = .ok b := by
        unfold conanoCheck conanoValid at h
        cases hc : conanoCompare g' 0 (splitBy isAsciiSpace (plainText e)) with
        | ok b => exact ⟨b, rfl⟩
        | error _ => rw [if_pos rfl, hc] at h; cases h
      obtain ⟨_, hall⟩ := conanoCompare_spec g' _ 0 hv
      rw [hfun, plainText_pieces]
      apply words_prefix
      rw [← hfun, ← plainText_pieces, List.prefix_iff_getElem?]
      intro j hj
      obtain ⟨t1, ht1, ha1⟩ := hall j _ (List.getElem?_eq_getElem hj)
      rw [Nat.zero_add] at ht1
      have hlen : j < (e.pieces.flatMap splitWs).length := by
        have h5 := (List.getElem?_eq_some_iff.1 ht1).1
        rw [htok, List.length_map, List.length_range'] at h5
        rw [← hw, List.length_map]
        exact h5
      obtain ⟨t2, ht2, ha2⟩ := hget j _ (List.getElem?_eq_getElem hlen)
      obtain rfl : t1 = t2 := Option.some.inj (ht1.symm.trans ht2)
      rw [hns, ha2] at ha1
      rw [List.getElem?_eq_getElem hlen, strVal_inj (Option.some.inj ha1)]
    · intro h
      have hc : conanoCompare g' 0 (splitBy isAsciiSpace (plainText e)) = .ok true := by
        refine conanoCompare_ok g' _ 0 ?_
        intro j w hj
        rw [h] at hj
        rw [Nat.zero_add, hns]
        exact hget j w hj
      unfold conanoCheck conanoValid
      rw [if_pos rfl, hc]
      rfl
  have hread : ∀ b g, conanoRead name ns b e = .ok g ↔ ∃ g0, conanoRead name ns false e = .ok g0 ∧ conanoCheck b e g0 = .ok g := by
    intro b g
    unfold conanoRead
    change (conanoElem none (conanoRoot ns) e (conanoStart name ns, 1) >>= fun st => conanoCheck b e st.1) = _ ↔ ∃ g0, (conanoElem none (conanoRoot ns) e (conanoStart name ns, 1) >>= fun st => conanoCheck false e st.1) = _ ∧ _
    cases conanoElem none (conanoRoot ns) e (conanoStart name ns, 1) with
    | error _ =>
      constructor
      · intro h; cases h
      · rintro ⟨_, h, _⟩; cases h
    | ok st =>
      constructor
      · exact fun h => ⟨st.1, rfl, h⟩
      · rintro ⟨g0, h, h'⟩
        obtain rfl := Except.ok.inj h
        exact h'
  rw [hread true g, hiff]
  constructor
  · rintro ⟨g0, h1, h2⟩
    have : g0 = g := by
      unfold conanoCheck at h2
      rw [if_pos rfl] at h2
      cases hv : g0.conanoValid e with
      | error _ => rw [hv] at h2; cases h2
      | ok b =>
        rw [hv] at h2
        cases b with
        | false => cases h2
        | true => exact Except.ok.inj h2
    subst this
    exact ⟨h1, (main g0 h1).1 h2⟩
  · rintro ⟨h1, h2⟩
    exact ⟨g, h1, (main g h1).2 h2⟩

/-- **C43** (accepted documents).  If no word goes on across a tag and there is no white space besides the ASCII characters, a document that can be read passes the check: the tokens are the words of the plain text. -/
theorem c43_separated (name ns : String) (e : CElem) (t : CTree) (hr : e.resolve ns none = .ok t) (hs : SeparatedPieces isAsciiSpace e.pieces) (ha : ∀ c ∈ plainText e, isUniSpace c = true → isAsciiSpace c = true) :
    ∃ g, conanoRead name ns true e = .ok g := by
  obtain ⟨g, hg, _⟩ := conanoRead_built name hr
  refine ⟨g, (c43_check name ns e g).2 ⟨hg, ?_⟩⟩
  have h := words_pieces hs
  rw [← plainText_pieces] at h
  have hsame : e.pieces.flatMap splitWs = e.pieces.flatMap (splitBy isAsciiSpace) := by
    have hc : ∀ p ∈ e.pieces, ∀ c ∈ p, isUniSpace c = isAsciiSpace c := by
      intro p hp c hc
      have hm : c ∈ plainText e := by rw [plainText_pieces]; exact List.mem_flatten.2 ⟨p, hp, hc⟩
      cases hu : isUniSpace c with
      | true => rw [ha c hm hu]
      | false =>
        cases h1 : isAsciiSpace c with
        | true => rw [uni_of_ascii h1] at hu; cases hu
        | false => rfl
    have hsplit : ∀ p : List Char, (∀ c ∈ p, isUniSpace c = isAsciiSpace c) → splitWs p = splitBy isAsciiSpace p := by
      intro p hp
      rw [splitWs_splitBy]
      symm
      apply splitBy_of_words
      have hw := splitBy_words isUniSpace p
      revert hp
      generalize splitBy isUniSpace p = ws at hw
      intro hp
      induction hw with
      | nil => exact .nil
      | space hc _ ih => exact .space (by rw [← hp _ (by simp)]; exact hc) (ih (fun c hc => hp c (List.mem_cons_of_mem _ hc)))
      | word hw hn hsep _ ih =>
        refine .word hw (fun c hc => by rw [← hp c (List.mem_append_left _ hc)]; exact hn c hc) ?_ (ih (fun c hc => hp c (List.mem_append_right _ hc)))
        intro c hc
        rw [← hp c (List.mem_append_right _ (List.mem_of_head? hc))]
        exact hsep c hc
    clear h hs ha hg hr
    revert hc
    generalize e.pieces = ps
    induction ps with
    | nil => intro _; rfl
    | cons p ps ih => intro hc; rw [List.flatMap_cons, List.flatMap_cons, hsplit p (hc p (by simp)), ih (fun q hq => hc q (List.mem_cons_of_mem _ hq))]
  rw [hsame]
  exact h

/-! ### elements and their words -/

theorem conano_edges {name ns : String} {s : List CStep} {g : DG} (hb : Built (conanoStart name ns) (conanoScript ns 1 s) g) (u v : NodeId) : (∃ a, g.EdgeWith u v a) ↔ (u, v) ∈ edgesOf (conanoScript ns 1 s) := by
  constructor
  · rintro ⟨a, h⟩
    rcases hb.edgeOf u v a h with h | ⟨ls, at', h, _⟩
    · exact absurd h (conanoStart_noEdge name ns u v a)
    · exact mem_edgesOf.2 ⟨ls, at', h⟩
  · intro h
    obtain ⟨ls, at', h⟩ := mem_edgesOf.1 h
    obtain ⟨a, h, _⟩ := hb.edgeNew u v ls at' h
    exact ⟨a, h⟩

theorem conano_typed {name ns : String} {s : List CStep} {g : DG} (hb : Built (conanoStart name ns) (conanoScript ns 1 s) g) {u v : NodeId} {a : Attrs} (h : g.EdgeWith u v a) :
    find a "edge_type" = some (.atom (.str "dominates")) ∨ find a "edge_type" = some (.atom (.str "spans")) := by
  rcases hb.edgeOf u v a h with h | ⟨ls, at', h, hm, _⟩
  · exact absurd h (conanoStart_noEdge name ns u v a)
  · rw [hm "edge_type" (by decide)]
    rcases (mem_conanoScript s 1).1 h with ⟨p, id, ls, hs, h | h⟩ | ⟨j, p, w, hj, h | h | h⟩
    · cases h
    · injection h with h1 h2 h3 h4
      subst h4
      exact .inl rfl
    · cases h
    · injection h with h1 h2 h3 h4
      subst h4
      exact .inr rfl
    · cases h

theorem conano_isToken {name ns : String} {s : List CStep} {g : DG} (hb : Built (conanoStart name ns) (conanoScript ns 1 s) g) (m : NodeId) : g.IsToken m ↔ ∃ j, j < (wordsOf s).length ∧ m = conanoTokenId (1 + j) := by
  unfold IsToken
  rw [hb.ns]
  show (∃ x, g.nodeAttr m (qual ns "token") = some x) ↔ _
  constructor
  · rintro ⟨x, h⟩
    rw [hb.attr _ _ (qual_layers ns _), conanoStart_attr, Option.or_none] at h
    obtain ⟨i, hi, hw⟩ := lastWrite_mem h
    rcases (mem_conanoScript s 1).1 hi with ⟨p, id, ls, hm, rfl | rfl⟩ | ⟨j', p', w', hj', rfl | rfl | rfl⟩
    · simp [Instr.write, find] at hw
    · cases hw
    · change (if m = conanoTokenId (1 + j') then _ else none) = some x at hw
      split at hw
      · rename_i h
        exact ⟨j', (List.getElem?_eq_some_iff.1 hj').1, h⟩
      · cases hw
    · cases hw
    · cases hw
  · rintro ⟨j, hj, rfl⟩
    exact ⟨_, conano_token hb (p := (wordsOf s)[j].1) (w := (wordsOf s)[j].2) (List.getElem?_eq_getElem hj)⟩

theorem distinct_ids {ns : String} {t : CTree} (hd : t.Distinct ns) : (idsOf (t.steps (conanoRoot ns))).Nodup ∧ ∀ i ∈ idsOf (t.steps (conanoRoot ns)), NodeId.str i ≠ conanoRoot ns ∧ ∀ m, NodeId.str i ≠ conanoTokenId m := by
  rw [← elements_ids (conanoRoot ns) t 1]
  refine ⟨hd.1, ?_⟩
  intro i hi
  obtain ⟨x, hx, rfl⟩ := List.mem_map.1 hi
  obtain ⟨h1, h2⟩ := hd.2 x hx
  refine ⟨?_, h2⟩
  intro h
  injection h with h
  exact h1 h

theorem root_ne_token (ns : String) (m : Nat) : conanoRoot ns ≠ conanoTokenId m := by
  intro h
  unfold conanoRoot conanoTokenId at h
  injection h with h
  have h := congrArg String.toList h
  rw [String.toList_append, show (String.ofList ("token:".toList ++ decimal m)).toList = "token:".toList ++ decimal m from String.toList_ofList] at h
  have hlast := congrArg List.getLast? h
  rw [List.getLast?_append, List.getLast?_append] at hlast
  have hne := decimal_ne_nil m
  obtain ⟨c, hc⟩ : ∃ c, (decimal m).getLast? = some c := ⟨_, List.getLast?_eq_some_getLast hne⟩
  rw [hc] at hlast
  have : c = 'e' := by
    have h2 : (":root_node".toList).getLast? = some 'e' := by decide
    rw [h2] at hlast
    exact (Option.some.inj hlast).symm
  subst this
  exact absurd (decimal_digits m 'e' (List.mem_of_getLast? hc)) (by decide)

theorem conano_span {name ns : String} {t : CTree} {g : DG} (hb : Built (conanoStart name ns) (conanoScript ns 1 (t.steps (conanoRoot ns))) g) (hd : t.Distinct ns) {x : CPart} (hx : x ∈ t.elements 1) {fuel : Nat}
    (hf : g.nodes.length ≤ fuel) : g.getSpan fuel (.str x.id) = .ok ((List.range' x.first x.words.length).map conanoTokenId) := by
  obtain ⟨pre, q, inner, post, hp⟩ := elements_part (conanoRoot ns) t 1 x hx
  obtain ⟨hn, hi⟩ := distinct_ids hd
  have hrt := root_ne_token ns
  have htd : TopDown [conanoRoot ns] (edgesOf (conanoScript ns 1 (t.steps (conanoRoot ns)))) := by
    refine topDown_conano _ 1 _ (earlier_steps (by simp) t) hn ?_ ?_
    · intro i h
      exact ⟨fun h' => (hi i h).1 (List.mem_singleton.1 h'), (hi i h).2⟩
    · intro m _ h
      exact hrt m (List.mem_singleton.1 h).symm
  obtain ⟨hac, hu⟩ := hb.tree (fun u v => by unfold edgeCount; rw [conanoStart_edges]; rfl) htd
  have wf := hb.inv.wf
  have hmem := hp.elem_mem
  have hn0 : g.HasNode (.str x.id) := by
    rw [hb.nodes]
    exact .inr ⟨_, (mem_conanoScript _ 1).2 (.inl ⟨q, x.id, x.layers, hmem, .inl rfl⟩), rfl⟩
  obtain ⟨span, hspan⟩ := getSpan_total wf hac fuel (.str x.id) (by have := spanRank_lt_length hn0; omega) hn0 (by
    intro u v k a _ _ h
    rcases conano_typed hb ⟨k, h⟩ with h | h <;> exact ⟨_, h⟩)
  rw [hspan]
  congr 1
  obtain ⟨_, hts, rk, _, hrk⟩ := htd.facts
  have hSE : ∀ u v, g.SpanEdge u v ↔ (u, v) ∈ edgesOf (conanoScript ns 1 (t.steps (conanoRoot ns))) := by
    intro u v
    rw [← conano_edges hb]
    constructor
    · rintro ⟨_, k, a, _, h, _⟩
      exact ⟨a, k, h⟩
    · rintro ⟨a, k, h⟩
      refine ⟨?_, k, a, ?_⟩
      · rintro rfl
        have := hrk u u ((conano_edges hb u u).1 ⟨a, k, h⟩)
        omega
      · rcases conano_typed hb ⟨k, h⟩ with h1 | h1
        · exact ⟨_, h, h1, by decide⟩
        · exact ⟨_, h, h1, by decide⟩
  have happ : ∀ {u v w}, g.Spans u v → g.SpanEdge v w → g.Spans u w := by
    intro u v w h1 h2
    induction h1 with
    | refl u => exact .step h2 (.refl _)
    | step e _ ih => exact .step e (ih h2)
  have hreach := part_reach hp hn hi hrt hSE (R := g.Spans) (fun u => .refl u) happ (by
    intro P u hu hstep v hv
    induction hv with
    | refl => exact hu
    | step e _ ih => exact ih (hstep _ _ hu e))
  refine tokens_unique (getSpan_sorted hspan) (getSpan_nodup wf hac hu fuel _ span hspan) x.first x.words.length ?_
  intro m
  rw [getSpan_mem wf fuel _ span hspan, conano_isToken hb, hreach]
  have hinner : ∀ i ∈ idsOf inner, i ∈ idsOf (t.steps (conanoRoot ns)) := by
    intro i h
    obtain ⟨p, ls, h⟩ := mem_idsOf.1 h
    refine mem_idsOf.2 ⟨p, ls, ?_⟩
    rw [hp.steps]
    exact List.mem_append_right _ (List.mem_cons_of_mem _ (List.mem_append_left _ h))
  constructor
  · rintro ⟨⟨j, hj, rfl⟩, h | ⟨i, h1, h⟩ | h⟩
    · exact absurd h.symm ((hi x.id (mem_idsOf.2 ⟨q, x.layers, hmem⟩)).2 _)
    · exact absurd h.symm ((hi i (hinner i h1)).2 _)
    · exact h
  · rintro ⟨j, hj, rfl⟩
    refine ⟨⟨(wordsOf pre).length + j, ?_, by rw [hp.first, Nat.add_assoc]⟩, .inr (.inr ⟨j, hj, rfl⟩)⟩
    have hlen : (wordsOf inner).length = x.words.length := by rw [← hp.words, List.length_map]
    rw [hp.steps, wordsOf_append, wordsOf_elem, wordsOf_append, List.length_append, List.length_append]
    omega

theorem conano_strings {name ns : String} {t : CTree} {g : DG} (hb : Built (conanoStart name ns) (conanoScript ns 1 (t.steps (conanoRoot ns))) g) {x : CPart} (hx : x ∈ t.elements 1) :
    List.Forall₂ (fun m w => g.TokenStr m (String.ofList w)) ((List.range' x.first x.words.length).map conanoTokenId) x.words := by
  obtain ⟨pre, q, inner, post, hp⟩ := elements_part (conanoRoot ns) t 1 x hx
  rw [List.forall₂_iff_get]
  refine ⟨by simp, ?_⟩
  intro i h1 h2
  simp only [List.get_eq_getElem, List.getElem_map, List.getElem_range', Nat.one_mul]
  have hlen : (wordsOf inner).length = x.words.length := by rw [← hp.words, List.length_map]
  have hw : (wordsOf (t.steps (conanoRoot ns)))[(wordsOf pre).length + i]? = (wordsOf inner)[i]? := by
    rw [hp.steps, wordsOf_append, wordsOf_elem, wordsOf_append, List.getElem?_append_right (by omega), Nat.add_sub_cancel_left, List.getElem?_append_left (by omega)]
  have hi : i < (wordsOf inner).length := by omega
  have := conano_token hb (j := (wordsOf pre).length + i) (p := (wordsOf inner)[i].1) (w := (wordsOf inner)[i].2) (by rw [hw, List.getElem?_eq_getElem hi])
  unfold TokenStr
  rw [hb.ns, hp.first, Nat.add_assoc]
  have hx2 : x.words[i] = (wordsOf inner)[i].2 := by
    simp only [← hp.words, List.getElem_map]
  rw [hx2]
  exact this

/-- **C43** (spans).  If the elements have different IDs, `get_span` returns for each element exactly the tokens of the words between its tags: they are consecutive, and in document order.
(Partial: elements that share an ID are missing, for them the claim is false, see `c43_fails_modifiers`.) -/
theorem c43_span_partial (name ns : String) (e : CElem) (t : CTree) (hr : e.resolve ns none = .ok t) (hd : t.Distinct ns) (g : DG) (hg : conanoRead name ns false e = .ok g) (x : CPart) (hx : x ∈ t.elements 1)
    (fuel : Nat) (hf : g.nodes.length ≤ fuel) :
    ∃ span, g.getSpan fuel (.str x.id) = .ok span ∧ span = (List.range' x.first x.words.length).map conanoTokenId ∧ List.Forall₂ (fun m w => g.TokenStr m (String.ofList w)) span x.words := by
  obtain ⟨g', hg', hb⟩ := conanoRead_built name hr
  obtain rfl : g' = g := Except.ok.inj (hg'.symm.trans hg)
  exact ⟨_, conano_span hb hd hx hf, rfl, conano_strings hb hx⟩

theorem mapE_forall₂ {α β γ : Type} {f : α → Except PyErr β} {r : γ → β} {P : α → γ → Prop} (h : ∀ a c, P a c → f a = .ok (r c)) : ∀ {as : List α} {cs : List γ}, List.Forall₂ P as cs → mapE f as = .ok (cs.map r)
  | _, _, .nil => rfl
  | _, _, .cons h1 h2 => by
    unfold mapE
    rw [h _ _ h1, mapE_forall₂ h h2]
    rfl

/-- **C43** (connectives).  `get_connective` returns the words between the tags of the connective with the same number as the unit, in lower case and separated by single blanks. -/
theorem c43_connective_partial (name ns : String) (e : CElem) (t : CTree) (hr : e.resolve ns none = .ok t) (hd : t.Distinct ns) (g : DG) (hg : conanoRead name ns false e = .ok g) (x : CPart) (hx : x ∈ t.elements 1)
    (i ty : String) (hi : ':' ∉ i.toList) (hty : ':' ∉ ty.toList) (hid : x.id = i ++ ":connective") (fuel : Nat) (hf : g.nodes.length ≤ fuel) :
    g.getConnective fuel (i ++ ":" ++ ty) = .ok (joinChars [' '] (x.words.map (List.map Char.toLower))) := by
  obtain ⟨span, h1, _, h2⟩ := c43_span_partial name ns e t hr hd g hg x hx fuel hf
  unfold getConnective
  have hsplit : splitChars ':' (i ++ ":" ++ ty).toList = [i.toList, ty.toList] := by
    rw [String.toList_append, String.toList_append, List.append_assoc]
    show splitChars ':' (i.toList ++ ':' :: ty.toList) = _
    rw [splitChars_append_sep ':' _ hi, splitChars_no_sep ':' _ hty]
  rw [hsplit]
  simp only
  have hn : (NodeId.str (String.ofList (i.toList ++ ":connective".toList))) = .str x.id := by
    rw [hid]
    congr 1
    apply String.toList_inj.1
    rw [String.toList_ofList, String.toList_append]
  rw [hn, h1]
  show (mapE g.lowerToken span >>= fun ts => pure (joinChars [' '] ts)) = _
  rw [mapE_forall₂ (f := g.lowerToken) (r := List.map Char.toLower) ?_ h2]
  · rfl
  · intro m w hm
    unfold lowerToken getToken
    have hm' : g.nodeAttr m (qual g.ns "token") = some (.atom (.str (String.ofList w))) := hm
    rw [getAttr_ok.2 hm']
    show Except.ok (List.map Char.toLower (String.ofList w).toList) = _
    rw [String.toList_ofList]

theorem perm_map_lift {α β : Type} {f : α → β} : ∀ {l : List β} {ys : List α}, l.Perm (ys.map f) → ∃ xs : List α, xs.Perm ys ∧ xs.map f = l
  | [], [], _ => ⟨[], .refl _, rfl⟩
  | [], _ :: _, h => by have := h.length_eq; simp at this
  | a :: l, ys, h => by
    obtain ⟨y, hy, rfl⟩ := List.mem_map.1 (h.mem_iff.1 (List.mem_cons_self))
    obtain ⟨s, r, rfl⟩ := List.append_of_mem hy
    rw [List.map_append, List.map_cons] at h
    have h2 := (h.trans List.perm_middle).cons_inv
    rw [← List.map_append] at h2
    obtain ⟨xs, hx1, hx2⟩ := perm_map_lift h2
    exact ⟨y :: xs, (hx1.cons y).trans List.perm_middle.symm, by rw [List.map_cons, hx2]⟩

/-- **C43** (units).  `get_conano_units` returns all units of the document, each once, in natural order of their IDs and with the tokens between their tags. -/
theorem c43_units_partial (name ns : String) (e : CElem) (t : CTree) (hr : e.resolve ns none = .ok t) (hd : t.Distinct ns) (g : DG) (hg : conanoRead name ns false e = .ok g)
    (fuel : Nat) (hf : g.nodes.length ≤ fuel) :
    ∃ xs : List CPart, xs.Perm ((t.elements 1).filter (fun x => decide (ns ++ ":unit" ∈ x.layers))) ∧ xs.Pairwise (fun x y => naturalLe (.str x.id) (.str y.id) = true) ∧
      g.conanoUnits fuel ns = (xs.map (fun x => (NodeId.str x.id, (List.range' x.first x.words.length).map conanoTokenId)), none) := by
  obtain ⟨g', hg', hb⟩ := conanoRead_built name hr
  obtain rfl : g' = g := Except.ok.inj (hg'.symm.trans hg)
  have hl : AllLayered g' := fun n a h => (layeredB_false a).1 (hb.layered n a h)
  obtain ⟨ids, h1, h2, _, h4⟩ := selectNodesByLayer_wf hb.inv.wf hl (.one (qual ns "unit"))
  have hq : qual ns "unit" = ns ++ ":unit" := rfl
  have hqn : ∀ b, ':' ∉ b.toList → ns ≠ qual ns b := by
    intro b _ h
    have := congrArg (fun s => s.toList.length) h
    simp [qual] at this
  have hlay : ∀ m, m ∈ ids ↔ ∃ x ∈ (t.elements 1).filter (fun x => decide (ns ++ ":unit" ∈ x.layers)), m = .str x.id := by
    intro m
    rw [h4]
    change g'.HasNode m ∧ g'.NodeLayer m (.str (qual ns "unit")) ↔ _
    rw [hb.layer]
    constructor
    · rintro ⟨_, h | ⟨i, hi, hgl⟩ | ⟨_, _, h⟩⟩
      · exfalso
        have hm := (conanoStart_nodes name ns m).1 (by
          rw [hasNode_some]
          unfold NodeLayer at h
          obtain ⟨a, ha, _⟩ := h
          exact ⟨a, ha⟩)
        subst hm
        obtain ⟨a, ha, xs, hxs, hl⟩ := h
        have e1 : (conanoStart name ns).nodeAttrs (conanoRoot ns) = some [("layers", .set [.str ns]), ("metadata", .dict [])] := find_put_self _ _ _
        rw [e1] at ha
        obtain rfl := Option.some.inj ha
        obtain rfl : [Atom.str ns] = xs := by simpa [find] using hxs
        have := List.mem_singleton.1 hl
        injection this with this
        exact hqn "unit" (by decide) this.symm
      · rcases (mem_conanoScript _ 1).1 hi with ⟨p, id, ls, hs, rfl | rfl⟩ | ⟨j, p, w, hj, rfl | rfl | rfl⟩
        · obtain ⟨rfl, hl⟩ := hgl
          obtain ⟨x, hx, hx1, hx2⟩ := steps_element (conanoRoot ns) t 1 p id ls hs
          refine ⟨x, List.mem_filter.2 ⟨hx, ?_⟩, by rw [hx1]⟩
          obtain ⟨l, hl, hl2⟩ := List.mem_map.1 hl
          injection hl2 with hl2
          subst hl2
          rw [hx2]
          exact decide_eq_true hl
        · exact hgl.elim
        · exfalso
          obtain ⟨_, hl⟩ := hgl
          simp only [List.map_cons, List.map_nil, List.mem_cons, List.not_mem_nil, or_false, Atom.str.injEq] at hl
          rcases hl with hl | hl
          · exact hqn "unit" (by decide) hl.symm
          · exact absurd (qual_inj hl) (by decide)
        · exact hgl.elim
        · exact hgl.elim
      · exfalso
        injection h with h
        exact hqn "unit" (by decide) h.symm
    · rintro ⟨x, hx, rfl⟩
      obtain ⟨hx, hxl⟩ := List.mem_filter.1 hx
      obtain ⟨pre, q, inner, post, hp⟩ := elements_part (conanoRoot ns) t 1 x hx
      have hin := (mem_conanoScript (ns := ns) (t.steps (conanoRoot ns)) 1).2 (.inl ⟨q, x.id, x.layers, hp.elem_mem, .inl rfl⟩)
      refine ⟨by rw [hb.nodes]; exact .inr ⟨_, hin, rfl⟩, .inr (.inl ⟨_, hin, rfl, ?_⟩)⟩
      exact List.mem_map.2 ⟨_, of_decide_eq_true hxl, rfl⟩
  -- the units in natural order
  have hnd : (((t.elements 1).filter (fun x => decide (ns ++ ":unit" ∈ x.layers))).map (fun x => NodeId.str x.id)).Nodup := by
    have : (((t.elements 1).filter (fun x => decide (ns ++ ":unit" ∈ x.layers))).map CPart.id).Nodup := hd.1.sublist (List.filter_sublist.map _)
    rw [List.nodup_iff_pairwise_ne, List.pairwise_map] at this ⊢
    exact this.imp (fun h e => h (by injection e))
  have hperm : (naturalSorted ids).Perm (((t.elements 1).filter (fun x => decide (ns ++ ":unit" ∈ x.layers))).map (fun x => NodeId.str x.id)) := by
    refine (pySorted_perm ids).trans ((List.perm_ext_iff_of_nodup h2 hnd).2 ?_)
    intro m
    rw [hlay, List.mem_map]
    exact ⟨fun ⟨x, hx, h⟩ => ⟨x, hx, h.symm⟩, fun ⟨x, hx, h⟩ => ⟨x, hx, h.symm⟩⟩
  obtain ⟨xs, hxs, hxp⟩ : ∃ xs : List CPart, xs.map (fun x => NodeId.str x.id) = naturalSorted ids ∧ xs.Perm ((t.elements 1).filter (fun x => decide (ns ++ ":unit" ∈ x.layers))) := by
    obtain ⟨xs, h, h'⟩ := perm_map_lift hperm
    exact ⟨xs, h', h⟩
  refine ⟨xs, hxp, ?_, ?_⟩
  · have : (naturalSorted ids).Pairwise (fun a b => naturalLe a b = true) := pySorted_sorted naturalLe_total naturalLe_trans ids
    rw [← hxs, List.pairwise_map] at this
    exact this
  · unfold conanoUnits
    rw [h1]
    simp only
    rw [← hxs]
    have : ∀ ys : List CPart, (∀ y ∈ ys, y ∈ t.elements 1) → Gen.collect (fun n => do let s ← g'.getSpan fuel n; return some (n, s)) (ys.map (fun x => NodeId.str x.id)) =
        (ys.map (fun x => (NodeId.str x.id, (List.range' x.first x.words.length).map conanoTokenId)), none) := by
      intro ys
      induction ys with
      | nil => intro _; rfl
      | cons y ys ih =>
        intro hy
        rw [List.map_cons, List.map_cons, Gen.collect, conano_span hb hd (hy y (by simp)) hf, ih (fun z hz => hy z (List.mem_cons_of_mem _ hz))]
        rfl
    exact this xs (fun y hy => (List.mem_filter.1 (hxp.mem_iff.1 hy)).1)

/-! ### examples -/

/-- a document with two units, a connective and a modifier -/
def sampleConano : CElem :=
  .elem "discourse" [] "Heute : ".toList [
    .elem "unit" [("id", "1"), ("type", "ext")] " Es regnet , ".toList [] " ".toList,
    .elem "unit" [("id", "1"), ("type", "int")] []
      [.elem "connective" [("id", "1")] "Und ".toList [.elem "modifier" [] "sogar ".toList [] "zwar ".toList] "sehr ".toList] " . ".toList] "\n".toList

/-- the elements of the document -/
def sampleConanoTree : CTree :=
  .node "discourse" ["conano"] "Heute : ".toList [
    .node "1:ext" ["conano", "conano:unit", "conano:ext"] " Es regnet , ".toList [] " ".toList,
    .node "1:int" ["conano", "conano:unit", "conano:int"] []
      [.node "1:connective" ["conano", "conano:connective"] "Und ".toList [.node "1:modifier" ["conano", "conano:modifier"] "sogar ".toList [] "zwar ".toList] "sehr ".toList] " . ".toList] "\n".toList

theorem sampleConano_resolve : sampleConano.resolve "conano" none = .ok sampleConanoTree := rfl

theorem sampleConano_elements : sampleConanoTree.elements 1 = [
    ⟨"discourse", ["conano"], 1, ["Heute".toList, ":".toList, "Es".toList, "regnet".toList, ",".toList, "Und".toList, "sogar".toList, "zwar".toList, "sehr".toList, ".".toList]⟩,
    ⟨"1:ext", ["conano", "conano:unit", "conano:ext"], 3, ["Es".toList, "regnet".toList, ",".toList]⟩,
    ⟨"1:int", ["conano", "conano:unit", "conano:int"], 6, ["Und".toList, "sogar".toList, "zwar".toList, "sehr".toList]⟩,
    ⟨"1:connective", ["conano", "conano:connective"], 6, ["Und".toList, "sogar".toList, "zwar".toList]⟩,
    ⟨"1:modifier", ["conano", "conano:modifier"], 7, ["sogar".toList]⟩] := rfl

theorem ne_token_of {s : String} (h : s.toList.take 6 ≠ "token:".toList) (n : Nat) : NodeId.str s ≠ conanoTokenId n := by
  intro e
  unfold conanoTokenId at e
  injection e with e
  have := congrArg String.toList e
  rw [show (String.ofList ("token:".toList ++ decimal n)).toList = "token:".toList ++ decimal n from String.toList_ofList] at this
  rw [this] at h
  exact h (List.take_left' rfl)

theorem sampleConano_distinct : sampleConanoTree.Distinct "conano" := by
  unfold CTree.Distinct
  rw [sampleConano_elements]
  refine ⟨by decide, ?_⟩
  intro x hx
  simp only [List.mem_cons, List.not_mem_nil, or_false] at hx
  rcases hx with rfl | rfl | rfl | rfl | rfl <;> exact ⟨by decide, ne_token_of (by decide)⟩

instance (p : Char → Bool) (a b : List Char) : Decidable (Border p a b) :=
  decidable_of_iff (a = [] ∨ b = [] ∨ a.getLast?.any p = true ∨ b.head?.any p = true) (by
    unfold Border
    rw [Option.any_eq_true, Option.any_eq_true])

theorem separated_of_check {p : Char → Bool} {ps : List (List Char)} (h : ∀ k ∈ List.range (ps.length + 1), Border p (ps.take k).flatten (ps.drop k).flatten) : SeparatedPieces p ps := by
  rintro xs ys rfl
  have := h xs.length (List.mem_range.2 (by rw [List.length_append]; omega))
  rw [List.take_left' rfl, List.drop_left' rfl] at this
  exact this

example : sampleConano.resolve "conano" none = .ok sampleConanoTree ∧ sampleConanoTree.Distinct "conano" ∧ SeparatedPieces isAsciiSpace sampleConano.pieces ∧
    (∀ c ∈ plainText sampleConano, isUniSpace c = true → isAsciiSpace c = true) :=
  ⟨sampleConano_resolve, sampleConano_distinct, separated_of_check (by decide +kernel), by decide +kernel⟩

example : (conanoRead "doc" "conano" true sampleConano).map (fun g => (g.getConnective 20 "1:int", g.conanoUnits 20 "conano")) =
    .ok (.ok "und sogar zwar".toList, ([(.str "1:ext", [.str "token:3", .str "token:4", .str "token:5"]), (.str "1:int", [.str "token:6", .str "token:7", .str "token:8", .str "token:9"])], none)) := by
  decide +kernel

/-- **C43** (finding): if a word goes on after a tag, the default check rejects the document: with an IndexError from building the error message, not with the intended message and AssertionError. -/
theorem c43_fails_glued : (conanoRead "" "conano" true (.elem "discourse" [] [] [.elem "unit" [("id", "1"), ("type", "ext")] "er".toList [] ", sie".toList] [])).map (fun g => g.tokens) = .error .index ∧
    (conanoRead "" "conano" false (.elem "discourse" [] [] [.elem "unit" [("id", "1"), ("type", "ext")] "er".toList [] ", sie".toList] [])).map (fun g => g.tokens) = .ok [.str "token:1", .str "token:2", .str "token:3"] := by
  decide +kernel

/-- **C43** (finding): a no-break space separates words when the graph is built but not when it is checked, so the document is rejected. -/
theorem c43_fails_nbsp : (conanoRead "" "conano" true (.elem "discourse" [] ['z', '.', Char.ofNat 160, 'B', '.'] [] [])).map (fun g => g.tokens) = .error .index ∧
    (conanoRead "" "conano" false (.elem "discourse" [] ['z', '.', Char.ofNat 160, 'B', '.'] [] [])).map (fun g => g.tokens) = .ok [.str "token:1", .str "token:2"] := by
  decide +kernel

/-- two modifiers of one connective -/
def twoModifiers : CElem :=
  .elem "discourse" [] [] [.elem "connective" [("id", "1")] [] [.elem "modifier" [] "sogar ".toList [] "dann ".toList, .elem "modifier" [] "nur ".toList [] "wenn ".toList] []] []

/-- **C43** (finding): two modifiers of one connective get the same node ID.  They become one node, dominated twice by the connective, so that `get_span` returns their tokens twice (and `get_connective` the words). -/
theorem c43_fails_modifiers : (conanoRead "" "conano" true twoModifiers).map (fun g => (g.getSpan 20 (.str "1:modifier"), g.getSpan 20 (.str "1:connective"), g.getConnective 20 "1:ext")) =
    .ok (.ok [.str "token:1", .str "token:3"], .ok [.str "token:1", .str "token:1", .str "token:2", .str "token:3", .str "token:3", .str "token:4"], .ok "sogar sogar dann nur nur wenn".toList) := by
  decide +kernel

end DG
end Dg
