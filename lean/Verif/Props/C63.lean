import Verif.Lemmas.ExportWhole
import Verif.Spec.Tree
import Batteries.Lean.Except

/-! **C63** Reading an ExportXML document. -/

namespace Dg
open Dict
namespace DG

variable {ns : String} {o : ExpOpts} {text : XElem} {precedence : Bool}

/-- **C63 (content)**.  Reading a document succeeds; its graph has exactly the edges, layers and attributes its elements stand for (`ExpContent`, Spec/ExportXml), each edge as often as its element is read: once, and once more for each directly enclosing word. -/
theorem c63_content (hok : ExpOk text) (name : Option String) (hp : precedence = true → 2 ≤ text.words.length) :
    ∃ g, expRead name ns precedence o text = .ok g ∧ ExpContent o ns precedence text g := by
  obtain ⟨g, h1, h2, _⟩ := expContent (ns := ns) (o := o) hok name hp
  exact ⟨g, h1, h2⟩

/-- **C63 (name)**.  The name is the given one; if there is none, the ID of the text. -/
theorem c63_name (hok : ExpOk text) (name : Option String) (hp : precedence = true → 2 ≤ text.words.length) {g : DG} (h : expRead name ns precedence o text = .ok g) :
    g.name = (match name.filter (fun n => decide (n ≠ "")) with | some n => n | none => text.id.getD "") := by
  obtain ⟨g', h1, _, h3⟩ := expContent (ns := ns) (o := o) hok name hp
  rw [h] at h1
  obtain rfl := Except.ok.inj h1
  rw [h3]
  unfold expStart
  rw [init_eq]
  cases name with
  | none => rfl
  | some n =>
    by_cases hn : n = ""
    · subst hn; rfl
    · simp [Option.filter, hn]

/-- **C63 (every element once)**.  If no child of a word is (or contains, directly inside of words) an element that stands for an edge, each edge of each element is in the graph exactly once.  Partial: one would expect this without the condition (see c63_fails_twice). -/
theorem c63_once_partial (hok : ExpOk text) (name : Option String) (hp : precedence = true → 2 ≤ text.words.length)
    (hw : ∀ r ∈ text.descs [], r.1.head?.any (fun a => decide (a.tag = "word")) = true → XRow.edges o ns text.node r = []) :
    ∃ g, expRead name ns precedence o text = .ok g ∧
      EdgesAre g ((text.descs []).flatMap (XRow.edges o ns text.node) ++ if precedence then precEdges ns text.node text.words else []) := by
  obtain ⟨g, h1, h2⟩ := c63_content (ns := ns) (o := o) hok name hp
  refine ⟨g, h1, ?_⟩
  have h := h2.edges
  unfold XElem.edges at h
  rwa [List.flatMap_congr (g := XRow.edges o ns text.node)] at h
  intro r hr
  cases hh : r.1.head?.any (fun a => decide (a.tag = "word")) with
  | true =>
    rw [hw r hr hh]
    simp
  | false =>
    have : XRow.times r = 1 := by
      unfold XRow.times
      cases h1 : r.1 with
      | nil => rfl
      | cons a l =>
        rw [h1] at hh
        simp only [List.head?_cons, Option.any_some, decide_eq_false_iff_not] at hh
        rw [List.takeWhile_cons_of_neg (by simpa using hh)]; rfl
    rw [this]; simp

theorem words_rows (hw : ∀ r ∈ text.descs [], r.2.tag = "word" → ∀ x ∈ r.2.descs r.1, x.2.tag ≠ "word") :
    text.rows.filter (fun r => decide (r.2.tag = "word")) = (text.descs []).filter (fun r => decide (r.2.tag = "word")) := by
  unfold XElem.rows
  have : ∀ L : List XRow, (∀ r ∈ L, r.2.tag = "word" → ∀ x ∈ r.2.descs r.1, x.2.tag ≠ "word") →
      (L.flatMap (fun r => r.2.reads r.1)).filter (fun r => decide (r.2.tag = "word")) = L.filter (fun r => decide (r.2.tag = "word")) := by
    intro L
    induction L with
    | nil => intro _; rfl
    | cons r L ih =>
      intro h
      have hr := h r (by simp)
      rw [List.flatMap_cons, List.filter_append, ih fun x hx => h x (List.mem_cons_of_mem _ hx), List.filter_cons]
      obtain ⟨anc, ⟨t, i, a, cs⟩⟩ := r
      rw [reads_mk]
      by_cases ht : t = "word"
      · rw [if_pos ht]
        have h0 : (cs.flatMap (fun c => c.reads (XElem.mk t i a cs :: anc))).filter (fun r => decide (r.2.tag = "word")) = [] := by
          rw [List.filter_eq_nil_iff]
          intro x hx
          obtain ⟨c, hc, hx⟩ := List.mem_flatMap.1 hx
          have hxd : x ∈ (XElem.mk t i a cs).descs anc := by
            rw [descs_mk, List.mem_flatMap]
            refine ⟨c, hc, ?_⟩
            rcases reads_mem c hx with rfl | hx
            · exact List.mem_cons_self ..
            · exact List.mem_cons_of_mem _ hx
          simpa using hr ht x hxd
        rw [List.filter_cons, h0]
        simp only [show (XElem.mk t i a cs).tag = t from rfl, ht, decide_true, if_true]
        rfl
      · rw [if_neg ht, List.filter_cons, List.filter_nil]
        simp only [show (XElem.mk t i a cs).tag = t from rfl, ht, decide_false]
        rfl
  exact this _ hw

/-- **C63 (tokens)**.  If no word is inside of a word, the tokens are the words in document order, each of them once. -/
theorem c63_tokens (hok : ExpOk text) (name : Option String) (hp : precedence = true → 2 ≤ text.words.length)
    (hw : ∀ r ∈ text.descs [], r.2.tag = "word" → ∀ x ∈ r.2.descs r.1, x.2.tag ≠ "word") {g : DG} (h : expRead name ns precedence o text = .ok g) :
    g.tokens = ((text.descs []).filter (fun r => decide (r.2.tag = "word"))).map (fun r => .str (r.2.id.getD "")) := by
  obtain ⟨g', h1, h2⟩ := c63_content (ns := ns) (o := o) hok name hp
  rw [h] at h1
  obtain rfl := Except.ok.inj h1
  rw [h2.tokens]
  unfold XElem.words
  rw [words_rows hw]
  refine List.map_congr_left fun r hr => ?_
  obtain ⟨hr, ht⟩ := List.mem_filter.1 hr
  have ht := of_decide_eq_true ht
  rcases (hok.rows r hr).tag with ⟨_, h1⟩ | ⟨h1, _⟩
  · cases hi : r.2.id with
    | none => exact absurd hi h1
    | some i => rw [own_of_id hi]; rfl
  · rw [ht] at h1; simp [expNotes] at h1

/-! ### attributes -/

theorem lastOf_unique {m : String} {k : String} {ws : List (String × String × Val)} {v : Val} (h : (m, k, v) ∈ ws) (hu : ∀ v', (m, k, v') ∈ ws → v' = v) : lastOf (.str m) k ws = some v := by
  unfold lastOf
  cases hf : ws.reverse.find? (fun w => decide (NodeId.str w.1 = .str m ∧ w.2.1 = k)) with
  | none =>
    rw [List.find?_eq_none] at hf
    exact absurd (hf _ (List.mem_reverse.2 h)) (by simp)
  | some w =>
    have h1 := List.find?_some hf
    have h2 := List.mem_reverse.1 (List.mem_of_find?_eq_some hf)
    obtain ⟨a, b, c⟩ := w
    simp only [decide_eq_true_eq, NodeId.str.injEq] at h1
    obtain ⟨rfl, rfl⟩ := h1
    rw [hu c h2]; rfl

theorem lastOf_none {m : String} {k : String} {ws : List (String × String × Val)} (h : ∀ w ∈ ws, ¬ (w.1 = m ∧ w.2.1 = k)) : lastOf (.str m) k ws = none := by
  unfold lastOf
  rw [Option.map_eq_none_iff, List.find?_eq_none]
  intro w hw
  have := h w (List.mem_reverse.1 hw)
  simpa using this

theorem lastOf_flatMap {m : NodeId} {k : String} {v : Val} {f : XRow → List (String × String × Val)} {L : List XRow} (h1 : ∃ r ∈ L, lastOf m k (f r) = some v) (h2 : ∀ r ∈ L, lastOf m k (f r) = none ∨ lastOf m k (f r) = some v) :
    lastOf m k (L.flatMap f) = some v := by
  induction L with
  | nil => obtain ⟨_, h, _⟩ := h1; cases h
  | cons x L ih =>
    rw [List.flatMap_cons, lastOf_append]
    by_cases h : ∃ r ∈ L, lastOf m k (f r) = some v
    · rw [ih h fun r hr => h2 r (List.mem_cons_of_mem _ hr)]; rfl
    · have hn : lastOf m k (L.flatMap f) = none := by
        have h3 : ∀ r ∈ L, lastOf m k (f r) = none := fun r hr => (h2 r (List.mem_cons_of_mem _ hr)).resolve_right fun e => h ⟨r, hr, e⟩
        clear * - h3
        induction L with
        | nil => rfl
        | cons y L ih => rw [List.flatMap_cons, lastOf_append, ih fun r hr => h3 r (List.mem_cons_of_mem _ hr), h3 y (by simp)]; rfl
      rw [hn]
      obtain ⟨r, hr, e⟩ := h1
      rcases List.mem_cons.1 hr with rfl | hr
      · exact e
      · exact absurd ⟨r, hr, e⟩ h

/-- the IDs of the elements of a document are different -/
def UniqueIds (text : XElem) : Prop := (text.id.toList ++ (text.descs []).filterMap (fun r => r.2.id)).Nodup

theorem UniqueIds.inj (h : UniqueIds text) {r r' : XRow} (hr : r ∈ text.descs []) (hr' : r' ∈ text.descs []) {i : String} (h1 : r.2.id = some i) (h2 : r'.2.id = some i) : r = r' := by
  have hn := (List.nodup_append'.1 h).2.1
  clear h
  generalize text.descs [] = L at hr hr' hn
  induction L with
  | nil => cases hr
  | cons x L ih =>
    cases hx : x.2.id with
    | none =>
      rw [List.filterMap_cons_none (f := fun r : XRow => r.2.id) hx] at hn
      rcases List.mem_cons.1 hr with rfl | hr
      · rw [hx] at h1; cases h1
      · rcases List.mem_cons.1 hr' with rfl | hr'
        · rw [hx] at h2; cases h2
        · exact ih hr hr' hn
    | some j =>
      rw [List.filterMap_cons_some (f := fun r : XRow => r.2.id) hx] at hn
      obtain ⟨hj, hn⟩ := List.nodup_cons.1 hn
      rcases List.mem_cons.1 hr with rfl | hr
      · rcases List.mem_cons.1 hr' with rfl | hr'
        · rfl
        · rw [hx] at h1
          obtain rfl := Option.some.inj h1
          exact absurd (List.mem_filterMap.2 ⟨r', hr', h2⟩) hj
      · rcases List.mem_cons.1 hr' with rfl | hr'
        · rw [hx] at h2
          obtain rfl := Option.some.inj h2
          exact absurd (List.mem_filterMap.2 ⟨r, by assumption, h1⟩) hj
        · exact ih hr hr' hn

theorem writes_own {r : XRow} {w : String × String × Val} (h : w ∈ XRow.writes o ns r) : w.1 = XRow.own r := by
  unfold XRow.writes at h
  simp only at h
  by_cases h1 : r.2.tag = "word"
  · simp only [h1, if_true, List.mem_append, List.mem_map, List.mem_cons, List.not_mem_nil, or_false] at h
    rcases h with ⟨_, _, rfl⟩ | rfl | rfl <;> rfl
  rw [if_neg h1] at h
  by_cases h1 : r.2.tag = "node"
  · simp only [h1, if_true, List.mem_append, List.mem_map, List.mem_cons, List.not_mem_nil, or_false] at h
    rcases h with ⟨_, _, rfl⟩ | rfl <;> rfl
  rw [if_neg h1] at h
  by_cases h1 : r.2.tag = "sentence"
  · rw [if_pos h1] at h
    rw [List.mem_singleton.1 h]
  rw [if_neg h1] at h
  by_cases h1 : r.2.tag = "edu"
  · simp only [h1, if_true, List.mem_append, List.mem_map, List.mem_cons, List.not_mem_nil, or_false] at h
    rcases h with ⟨_, _, rfl⟩ | rfl <;> rfl
  rw [if_neg h1] at h
  by_cases h1 : r.2.tag = "topic"
  · simp only [h1, if_true, List.mem_append, List.mem_map, List.mem_cons, List.not_mem_nil, or_false] at h
    rcases h with rfl | rfl <;> rfl
  rw [if_neg h1] at h
  by_cases h1 : r.2.tag = "edu-range"
  · simp only [h1, if_true, List.mem_map] at h
    obtain ⟨_, _, rfl⟩ := h; rfl
  rw [if_neg h1] at h
  by_cases h1 : r.2.tag = "ne"
  · simp only [h1, if_true, List.mem_append, List.mem_map, List.mem_cons, List.not_mem_nil, or_false] at h
    rcases h with ⟨_, _, rfl⟩ | rfl <;> rfl
  rw [if_neg h1] at h
  by_cases h1 : r.2.tag = "connective"
  · rw [if_pos h1] at h
    rw [List.mem_singleton.1 h]
  rw [if_neg h1] at h
  split at h
  · obtain ⟨_, _, rfl⟩ := List.mem_map.1 h; rfl
  split at h
  · rw [List.mem_singleton.1 h]
  · cases h

/-- what an annotation of its parent writes -/
theorem writes_note {r : XRow} (ht : r.2.tag ∈ expNotes) {w : String × String × Val} (h : w ∈ XRow.writes o ns r) : w.2.1 = "connective" ∨ w.2.1 = "relation" ∨ r.2.tag = "discRel" ∧ ∃ kv ∈ r.2.attrs, w.2.1 = qual ns kv.1 := by
  simp only [expNotes, List.mem_cons, List.not_mem_nil, or_false] at ht
  rcases ht with h1 | h1 | h1 | h1 | h1
  · simp only [XRow.writes, h1, String.reduceEq, if_false, if_true, List.mem_singleton] at h
    rw [h]; exact .inl rfl
  · simp only [XRow.writes, h1, String.reduceEq, if_false, if_true, true_and, false_and] at h
    split at h
    · obtain ⟨kv, hk, rfl⟩ := List.mem_map.1 h
      exact .inr (.inr ⟨h1, kv, hk, rfl⟩)
    · cases h
  · simp only [XRow.writes, h1, String.reduceEq, if_false, if_true, true_and, false_and] at h
    split at h
    · rw [List.mem_singleton.1 h]; exact .inr (.inl rfl)
    · cases h
  · simp only [XRow.writes, h1, String.reduceEq, if_false, false_and] at h
    cases h
  · simp only [XRow.writes, h1, String.reduceEq, if_false, false_and] at h
    cases h

/-- the parent of an element -/
theorem descs_parent (e : XElem) : ∀ {anc : List XElem} {r : XRow}, r ∈ e.descs anc → ∃ p rest, r.1 = p :: rest ∧ r.2 ∈ p.children ∧ ((p = e ∧ rest = anc) ∨ (rest, p) ∈ e.descs anc) := by
  induction e using XElem.ind with
  | h t i a cs ih =>
    intro anc r hr
    rw [descs_mk, List.mem_flatMap] at hr
    obtain ⟨c, hc, h⟩ := hr
    rcases List.mem_cons.1 h with rfl | h
    · exact ⟨_, _, rfl, hc, .inl ⟨rfl, rfl⟩⟩
    · obtain ⟨p, rest, h1, h2, h3⟩ := ih c hc h
      refine ⟨p, rest, h1, h2, .inr ?_⟩
      rw [descs_mk, List.mem_flatMap]
      refine ⟨c, hc, ?_⟩
      rcases h3 with ⟨rfl, rfl⟩ | h3
      · exact List.mem_cons_self ..
      · exact List.mem_cons_of_mem _ h3

/-- the ancestors of an element -/
theorem descs_split {r : XRow} (hr : r ∈ text.descs []) : ∀ {pre : List XElem} {a : XElem} {rest : List XElem}, r.1 = pre ++ a :: rest → (a = text ∧ rest = []) ∨ (rest, a) ∈ text.descs [] := by
  intro pre
  induction pre generalizing r with
  | nil =>
    intro a rest h
    obtain ⟨p, rest', h1, _, h3⟩ := descs_parent text hr
    rw [h1] at h
    obtain ⟨rfl, rfl⟩ := List.cons.inj h
    exact h3
  | cons x pre ih =>
    intro a rest h
    obtain ⟨p, rest', h1, _, h3⟩ := descs_parent text hr
    rw [h1] at h
    obtain ⟨rfl, rfl⟩ := List.cons.inj h
    rcases h3 with ⟨_, h3⟩ | h3
    · simp at h3
    · exact ih h3 rfl

/-- the value an element gives to a node is in the graph -/
theorem attr_of_write (hok : ExpOk text) (hu : UniqueIds text) {g : DG} (hc : ExpContent o ns precedence text g) {r : XRow} (hr : r ∈ text.descs []) (hi : r.2.id ≠ none) {k : String} {v : Val}
    (hv : lastOf (.str (XRow.own r)) k (XRow.writes o ns r) = some v) (hk : k ≠ "layers") (hk1 : k ≠ "connective") (hk2 : k ≠ "relation")
    (hd : ∀ c ∈ r.2.children, c.tag = "discRel" → ∀ kv ∈ c.attrs, k ≠ qual ns kv.1) : g.nodeAttr (.str (r.2.id.getD "")) k = some v := by
  obtain ⟨i, hi⟩ := Option.ne_none_iff_exists'.1 hi
  have hown := own_of_id hi
  rw [hi, Option.getD_some, ← hown, hc.attrs _ _ hk, lastOf_flatMap (v := v)]
  · rfl
  · exact ⟨r, mem_rows.2 hr, hv⟩
  · intro r' hr'
    have hr' := mem_rows.1 hr'
    by_cases he : r' = r
    · right; rw [he]; exact hv
    left
    refine lastOf_none fun w h e => he ?_
    obtain ⟨m', k', v'⟩ := w
    obtain ⟨rfl, rfl⟩ := e
    have ho := writes_own h
    rcases (hok.rows r' hr').tag with ⟨h1, h2⟩ | ⟨h1, _, p, rest, j, hp, hj⟩
    · obtain ⟨i', hi'⟩ := Option.ne_none_iff_exists'.1 h2
      rw [own_of_id hi', hown] at ho
      dsimp only at ho
      subst ho
      exact (hu.inj hr hr' hi hi').symm
    · exfalso
      rcases writes_note h1 h with e | e | ⟨e1, kv, e2, e3⟩
      · exact hk1 e
      · exact hk2 e
      · obtain ⟨p', rest', h3, h4, h5⟩ := descs_parent text hr'
        rw [hp] at h3
        obtain ⟨rfl, rfl⟩ := List.cons.inj h3
        have hji : j = i := by
          obtain ⟨p2, rest2, h6, h7⟩ := own_note (hok.rows r' hr') h1
          rw [hp] at h6
          obtain ⟨rfl, rfl⟩ := List.cons.inj h6
          rw [hj] at h7
          rw [← hown]
          dsimp only at ho
          rw [ho]
          exact Option.some.inj h7
        subst hji
        rcases h5 with ⟨rfl, _⟩ | h5
        · have := (List.nodup_append'.1 hu).2.2
          rw [hj] at this
          exact this (by simp) (List.mem_filterMap.2 ⟨r, hr, hi⟩)
        · have := hu.inj hr h5 hi hj
          refine hd r'.2 ?_ e1 kv e2 e3
          rw [this]; exact h4

/-- **C63 (attributes)**.  If the IDs are different: the node of a word, node, edu, edu-range or ne has all XML attributes of its element (in the namespace); unless an attribute with the same name is given by a discourse relation that is a child of the element. -/
theorem c63_attributes (hok : ExpOk text) (hu : UniqueIds text) (name : Option String) (hp : precedence = true → 2 ≤ text.words.length) {g : DG} (h : expRead name ns precedence o text = .ok g)
    {r : XRow} (hr : r ∈ text.descs []) (ht : r.2.tag ∈ ["word", "node", "edu", "edu-range", "ne"]) {k v : String} (hk : (k, v) ∈ r.2.attrs) (hkt : r.2.tag = "word" → k ≠ "token")
    (hd : ∀ c ∈ r.2.children, c.tag = "discRel" → k ∉ keys c.attrs) : g.nodeAttr (.str (r.2.id.getD "")) (qual ns k) = some (strV v) := by
  obtain ⟨g', h1, hc⟩ := c63_content (ns := ns) (o := o) hok name hp
  rw [h] at h1
  obtain rfl := Except.ok.inj h1
  have hpl : ∀ b : String, ':' ∉ b.toList → qual ns k ≠ b := fun b hb => qual_ne_plain hb
  have hid : r.2.id ≠ none := by
    rcases (hok.rows r hr).tag with ⟨_, h⟩ | ⟨h, _⟩
    · exact h
    · simp only [List.mem_cons, List.not_mem_nil, or_false] at ht
      rcases ht with ht | ht | ht | ht | ht <;> (rw [ht] at h; simp [expNotes] at h)
  have hx : ∀ v', (XRow.own r, qual ns k, v') ∈ r.2.attrs.map (fun kv => (XRow.own r, qual ns kv.1, strV kv.2)) → v' = strV v := by
    intro v' h
    obtain ⟨⟨k2, v2⟩, h2, e⟩ := List.mem_map.1 h
    simp only [Prod.mk.injEq, true_and] at e
    have hk2 : k2 = k := qual_inj e.1
    subst hk2
    have := mem_find (hok.rows r hr).keys h2
    rw [mem_find (hok.rows r hr).keys hk] at this
    rw [← e.2, Option.some.inj this]
  have hm : (XRow.own r, qual ns k, strV v) ∈ r.2.attrs.map (fun kv => (XRow.own r, qual ns kv.1, strV kv.2)) := List.mem_map.2 ⟨_, hk, rfl⟩
  refine attr_of_write hok hu hc hr hid (lastOf_unique ?_ ?_) (hpl _ (by decide)) (hpl _ (by decide)) (hpl _ (by decide)) ?_
  · simp only [List.mem_cons, List.not_mem_nil, or_false] at ht
    rcases ht with ht | ht | ht | ht | ht <;> simp only [XRow.writes, ht, String.reduceEq, if_false, if_true, List.mem_append]
    · exact .inl hm
    · exact .inl hm
    · exact .inl hm
    · exact hm
    · exact .inl hm
  · intro v' h
    have hl := hpl "label" (by decide)
    have htk := hpl "tokens" (by decide)
    simp only [List.mem_cons, List.not_mem_nil, or_false] at ht
    rcases ht with ht | ht | ht | ht | ht <;> simp only [XRow.writes, ht, String.reduceEq, if_false, if_true, List.mem_append, List.mem_cons, List.not_mem_nil, or_false, Prod.mk.injEq, true_and, hl, htk, false_and] at h
    · rcases h with h | ⟨h, _⟩
      · exact hx v' h
      · exact absurd (qual_inj h) (hkt ht)
    · exact hx v' h
    · exact hx v' h
    · exact hx v' h
    · exact hx v' h
  · intro c hc' ht' kv hkv e
    refine hd c hc' ht' ?_
    rw [qual_inj e]
    exact List.mem_map_of_mem hkv

/-- **C63 (words)**.  If the IDs are different, the word has its form as label, and as token (unless it has a discourse relation as child that has an attribute of this name). -/
theorem c63_word (hok : ExpOk text) (hu : UniqueIds text) (name : Option String) (hp : precedence = true → 2 ≤ text.words.length) {g : DG} (h : expRead name ns precedence o text = .ok g)
    {r : XRow} (hr : r ∈ text.descs []) (ht : r.2.tag = "word") (hd : ∀ c ∈ r.2.children, c.tag = "discRel" → "token" ∉ keys c.attrs) :
    ∃ form, find r.2.attrs "form" = some form ∧ g.nodeAttr (.str (r.2.id.getD "")) "label" = some (strV form) ∧ g.nodeAttr (.str (r.2.id.getD "")) (qual ns "token") = some (strV form) ∧ .str (r.2.id.getD "") ∈ g.tokens := by
  obtain ⟨g', h1, hc⟩ := c63_content (ns := ns) (o := o) hok name hp
  rw [h] at h1
  obtain rfl := Except.ok.inj h1
  have hid : r.2.id ≠ none := by
    rcases (hok.rows r hr).tag with ⟨_, h⟩ | ⟨h, _⟩
    · exact h
    · rw [ht] at h; simp [expNotes] at h
  have hf : "form" ∈ keys r.2.attrs := (hok.rows r hr).attrs _ (by rw [ht]; simp [XRow.required])
  obtain ⟨form, hf⟩ := (mem_keys_iff _ _).1 hf
  have hat : XRow.at' r "form" = form := by unfold XRow.at'; rw [hf]; rfl
  have hpl : ∀ b k : String, ':' ∉ b.toList → qual ns k ≠ b := fun b k hb => qual_ne_plain hb
  refine ⟨form, hf, ?_, ?_, ?_⟩
  · refine attr_of_write hok hu hc hr hid (v := strV form) (lastOf_unique ?_ ?_) (by decide) (by decide) (by decide) ?_
    · simp only [XRow.writes, ht, if_true, hat, List.mem_append]
      right; simp
    · intro v' h
      simp only [XRow.writes, ht, if_true, hat, List.mem_append, List.mem_map, List.mem_cons, List.not_mem_nil, or_false, Prod.mk.injEq, true_and] at h
      rcases h with ⟨kv, _, h, _⟩ | ⟨h, _⟩ | h
      · exact absurd h (hpl _ _ (by decide))
      · exact absurd h.symm (hpl _ _ (by decide))
      · exact h
    · intro c _ _ kv _ e
      exact hpl _ _ (by decide) e.symm
  · refine attr_of_write hok hu hc hr hid (v := strV form) ?_ (hpl _ _ (by decide)) (hpl _ _ (by decide)) (hpl _ _ (by decide)) ?_
    · simp only [XRow.writes, ht, if_true, hat, lastOf_append, lastOf_two, lastOf_one, true_and]
      rw [if_neg (hpl _ _ (by decide))]
      rfl
    · intro c hc' ht' kv hkv e
      refine hd c hc' ht' ?_
      rw [qual_inj e]
      exact List.mem_map_of_mem hkv
  · rw [hc.tokens]
    unfold XElem.words
    refine List.mem_map.2 ⟨r, List.mem_filter.2 ⟨mem_rows.2 hr, by simp [ht]⟩, ?_⟩
    obtain ⟨i, hi⟩ := Option.ne_none_iff_exists'.1 hid
    rw [own_of_id hi, hi]; rfl

/-- **C63 (constituents and named entities)**.  If the IDs are different, the category of a `<node>` is its label; the label of a named entity is its type, after "ne:". -/
theorem c63_label (hok : ExpOk text) (hu : UniqueIds text) (name : Option String) (hp : precedence = true → 2 ≤ text.words.length) {g : DG} (h : expRead name ns precedence o text = .ok g)
    {r : XRow} (hr : r ∈ text.descs []) :
    (r.2.tag = "node" → ∃ cat, find r.2.attrs "cat" = some cat ∧ g.nodeAttr (.str (r.2.id.getD "")) "label" = some (strV cat)) ∧
    (r.2.tag = "ne" → ∃ ty, find r.2.attrs "type" = some ty ∧ g.nodeAttr (.str (r.2.id.getD "")) "label" = some (strV ("ne:" ++ ty))) := by
  obtain ⟨g', h1, hc⟩ := c63_content (ns := ns) (o := o) hok name hp
  rw [h] at h1
  obtain rfl := Except.ok.inj h1
  have hpl : ∀ b k : String, ':' ∉ b.toList → qual ns k ≠ b := fun b k hb => qual_ne_plain hb
  constructor
  · intro ht
    have hid : r.2.id ≠ none := by
      rcases (hok.rows r hr).tag with ⟨_, h⟩ | ⟨h, _⟩
      · exact h
      · rw [ht] at h; simp [expNotes] at h
    obtain ⟨v, hf⟩ := (mem_keys_iff _ _).1 ((hok.rows r hr).attrs "cat" (by rw [ht]; simp [XRow.required]))
    have hat : XRow.at' r "cat" = v := by unfold XRow.at'; rw [hf]; rfl
    refine ⟨v, hf, attr_of_write hok hu hc hr hid ?_ (by decide) (by decide) (by decide) fun c _ _ kv _ e => hpl _ _ (by decide) e.symm⟩
    simp only [XRow.writes, ht, String.reduceEq, if_false, if_true, hat, lastOf_append, lastOf_one, and_self]
    rfl
  · intro ht
    have hid : r.2.id ≠ none := by
      rcases (hok.rows r hr).tag with ⟨_, h⟩ | ⟨h, _⟩
      · exact h
      · rw [ht] at h; simp [expNotes] at h
    obtain ⟨v, hf⟩ := (mem_keys_iff _ _).1 ((hok.rows r hr).attrs "type" (by rw [ht]; simp [XRow.required]))
    have hat : XRow.at' r "type" = v := by unfold XRow.at'; rw [hf]; rfl
    refine ⟨v, hf, attr_of_write hok hu hc hr hid ?_ (by decide) (by decide) (by decide) fun c _ _ kv _ e => hpl _ _ (by decide) e.symm⟩
    simp only [XRow.writes, ht, String.reduceEq, if_false, if_true, hat, lastOf_append, lastOf_one, and_self]
    rfl

/-- **C63 (token lists)**.  If the IDs are different, the attribute 'tokens' of an edu, a topic and a sentence without 'span' has the IDs of the words inside of the element in document order. -/
theorem c63_token_lists (hok : ExpOk text) (hu : UniqueIds text) (name : Option String) (hp : precedence = true → 2 ≤ text.words.length) {g : DG} (h : expRead name ns precedence o text = .ok g)
    {r : XRow} (hr : r ∈ text.descs []) (ht : r.2.tag = "edu" ∨ r.2.tag = "topic" ∨ r.2.tag = "sentence" ∧ "span" ∉ keys r.2.attrs) :
    g.nodeAttr (.str (r.2.id.getD "")) "tokens" = some (.list (((r.2.descs r.1).filter (fun x => decide (x.2.tag = "word"))).map (fun x => .str (x.2.id.getD "")))) := by
  obtain ⟨g', h1, hc⟩ := c63_content (ns := ns) (o := o) hok name hp
  rw [h] at h1
  obtain rfl := Except.ok.inj h1
  have hpl : ∀ b k : String, ':' ∉ b.toList → qual ns k ≠ b := fun b k hb => qual_ne_plain hb
  have hid : r.2.id ≠ none := by
    rcases (hok.rows r hr).tag with ⟨_, h⟩ | ⟨h, _⟩
    · exact h
    · rcases ht with ht | ht | ⟨ht, _⟩ <;> (rw [ht] at h; simp [expNotes] at h)
  have hl : ((r.2.descs r.1).filter (fun x => decide (x.2.tag = "word"))).map (fun x => Atom.str (x.2.id.getD "")) = (XRow.inside r "word").map Atom.str := by
    unfold XRow.inside XElem.descsTagged
    rw [List.map_map]
    refine List.map_congr_left fun x hx => ?_
    obtain ⟨hx, htx⟩ := List.mem_filter.1 hx
    have htx := of_decide_eq_true htx
    rcases (hok.rows x (descs_trans text hr hx)).tag with ⟨_, h1⟩ | ⟨h1, _⟩
    · obtain ⟨i, hi⟩ := Option.ne_none_iff_exists'.1 h1
      simp [own_of_id hi, hi]
    · rw [htx] at h1; simp [expNotes] at h1
  rw [hl]
  refine attr_of_write hok hu hc hr hid ?_ (by decide) (by decide) (by decide) fun c _ _ kv _ e => hpl _ _ (by decide) e.symm
  rcases ht with ht | ht | ⟨ht, hs⟩
  · simp only [XRow.writes, ht, String.reduceEq, if_false, if_true, lastOf_append, lastOf_one, and_self]
    rfl
  · simp only [XRow.writes, ht, String.reduceEq, if_false, if_true, lastOf_two, lastOf_one, and_self]
    rfl
  · simp only [XRow.writes, ht, String.reduceEq, if_false, if_true, lastOf_one, and_self, (find_eq_none_iff _ _).2 hs]

/-! ### dominance -/

/-- the dominance edges of an element -/
def XRow.DomEdge (root : NodeId) (r : XRow) (u v : NodeId) : Prop :=
  v = .str (r.2.id.getD "") ∧ (r.2.tag = "sentence" ∧ u = root ∨ r.2.tag = "node" ∧ u = .str (XRow.nodeParent r) ∨ r.2.tag = "word" ∧ u = .str (XRow.wordParent r))

theorem edges_dominance {r : XRow} (ho : XRow.Ok r) {root u v : NodeId} : (∃ e ∈ XRow.edges o ns root r, e.source = u ∧ e.target = v ∧ find e.attrs "edge_type" = some (.atom (.str "dominates"))) ↔ XRow.DomEdge root r u v := by
  have hown : r.2.tag ∈ expOwners → XRow.own r = r.2.id.getD "" := by
    intro ht
    rcases ho.tag with ⟨_, h⟩ | ⟨h, _⟩
    · obtain ⟨i, hi⟩ := Option.ne_none_iff_exists'.1 h
      rw [own_of_id hi, hi]; rfl
    · simp only [expOwners, expNotes, List.mem_cons, List.not_mem_nil, or_false] at ht h
      rcases h with h | h | h | h | h <;> simp [h] at ht
  unfold XRow.DomEdge
  rcases row_tags ho with h | h | h | h | h | h | h | h | h | h | h | h
  · simp [XRow.edges, h, find_cons, strV]
  · simp [XRow.edges, h, find_cons, strV]
  · simp [XRow.edges, h, find_cons, strV]
  · rw [← hown (by rw [h]; decide)]
    simp [XRow.edges, h, find_cons, strV, eq_comm, and_comm]
  · rw [← hown (by rw [h]; decide)]
    simp [XRow.edges, h, find_cons, strV, eq_comm, and_comm]
  · simp [XRow.edges, h, find_cons, strV]
  · rw [← hown (by rw [h]; decide)]
    simp [XRow.edges, h, find_cons, strV, eq_comm, and_comm]
  · simp [XRow.edges, h, find_cons, strV]
  · cases h1 : o.relations <;> simp [XRow.edges, h, h1, find_cons, strV]
  · cases h1 : o.relations <;> cases h2 : find r.2.attrs "target" <;> simp [XRow.edges, h, h1, h2, find_cons, strV]
  · cases h1 : o.secedges <;> simp [XRow.edges, h, h1, find_cons, strV]
  · cases h1 : o.relations <;> cases h2 : o.splitrelations <;> simp [XRow.edges, h, h1, h2, find_cons, strV]

/-- **C63 (dominance)**.  The dominance edges are exactly: from the root to each sentence, from the parent of each node to the node, and from the parent of each word to the word. -/
theorem c63_dominance (hok : ExpOk text) (name : Option String) (hp : precedence = true → 2 ≤ text.words.length) {g : DG} (h : expRead name ns precedence o text = .ok g) (u v : NodeId) :
    g.Dominates u v ↔ ∃ r ∈ text.descs [], XRow.DomEdge text.node r u v := by
  obtain ⟨g', h1, hc⟩ := c63_content (ns := ns) (o := o) hok name hp
  rw [h] at h1
  obtain rfl := Except.ok.inj h1
  have hmem : ∀ e, e ∈ text.edges o ns ↔ ∃ r ∈ text.descs [], e ∈ XRow.edges o ns text.node r := by
    intro e
    unfold XElem.edges
    rw [List.mem_flatMap]
    refine exists_congr fun r => and_congr_right fun _ => ?_
    rw [List.mem_flatten]
    constructor
    · rintro ⟨l, hl, he⟩
      rw [(List.mem_replicate.1 hl).2] at he; exact he
    · intro he
      exact ⟨_, List.mem_replicate.2 ⟨by unfold XRow.times; omega, rfl⟩, he⟩
  have hd : g.Dominates u v ↔ ∃ a, g.EdgeWith u v a ∧ find a "edge_type" = some (.atom (.str "dominates")) := by
    unfold Dominates DominanceEdge edgeAttr EdgeWith
    constructor
    · rintro ⟨k, hk⟩
      cases ha : g.edgeAttrs u v k with
      | none => rw [ha] at hk; cases hk
      | some a => rw [ha] at hk; exact ⟨a, ⟨k, ha⟩, hk⟩
    · rintro ⟨a, ⟨k, hk⟩, h⟩
      exact ⟨k, by rw [hk]; exact h⟩
  rw [hd]
  constructor
  · rintro ⟨a, ha, hty⟩
    obtain ⟨e, he, h1, h2, h3, _⟩ := hc.edges.sound u v a ha
    rw [h3 _ (by decide)] at hty
    rcases List.mem_append.1 he with he | he
    · obtain ⟨r, hr, he⟩ := (hmem e).1 he
      exact ⟨r, hr, (edges_dominance (hok.rows r hr)).1 ⟨e, he, h1, h2, hty⟩⟩
    · exfalso
      split at he
      · unfold precEdges at he
        obtain ⟨p, _, rfl⟩ := List.mem_map.1 he
        simp [precEdge, find_cons] at hty
      · cases he
  · rintro ⟨r, hr, hdm⟩
    obtain ⟨e, he, h1, h2, hty⟩ := (edges_dominance (o := o) (ns := ns) (hok.rows r hr)).2 hdm
    obtain ⟨a, ha, h3, _⟩ := hc.edges.complete e (List.mem_append_left _ ((hmem e).2 ⟨r, hr, he⟩))
    rw [h1, h2] at ha
    exact ⟨a, ha, by rw [h3 _ (by decide)]; exact hty⟩

/-- **C63 (one parent)**.  If the IDs are different, every sentence, node and word is dominated by exactly one node. -/
theorem c63_one_parent (hok : ExpOk text) (hu : UniqueIds text) (name : Option String) (hp : precedence = true → 2 ≤ text.words.length) {g : DG} (h : expRead name ns precedence o text = .ok g)
    {r : XRow} (hr : r ∈ text.descs []) (ht : r.2.tag ∈ ["sentence", "node", "word"]) : ∃ p, ∀ u, g.Dominates u (.str (r.2.id.getD "")) ↔ u = p := by
  have hid : ∀ r ∈ text.descs [], r.2.tag ∈ ["sentence", "node", "word"] → ∃ i, r.2.id = some i := by
    intro r hr ht
    rcases (hok.rows r hr).tag with ⟨_, h⟩ | ⟨h, _⟩
    · exact Option.ne_none_iff_exists'.1 h
    · simp only [expNotes, List.mem_cons, List.not_mem_nil, or_false] at ht h
      rcases h with h | h | h | h | h <;> simp [h] at ht
  obtain ⟨p, hp'⟩ : ∃ p, ∀ u, XRow.DomEdge text.node r u (.str (r.2.id.getD "")) ↔ u = p := by
    simp only [List.mem_cons, List.not_mem_nil, or_false] at ht
    rcases ht with ht | ht | ht
    · exact ⟨_, fun u => by simp [XRow.DomEdge, ht]; rfl⟩
    · exact ⟨_, fun u => by simp [XRow.DomEdge, ht]; rfl⟩
    · exact ⟨_, fun u => by simp [XRow.DomEdge, ht]; rfl⟩
  refine ⟨p, fun u => ?_⟩
  rw [c63_dominance hok name hp h, ← hp']
  constructor
  · rintro ⟨r', hr', hd⟩
    have ht' : r'.2.tag ∈ ["sentence", "node", "word"] := by
      rcases hd.2 with ⟨h, _⟩ | ⟨h, _⟩ | ⟨h, _⟩ <;> simp [h]
    obtain ⟨i, hi⟩ := hid r hr ht
    obtain ⟨i', hi'⟩ := hid r' hr' ht'
    have := hd.1
    rw [hi, hi', Option.getD_some, Option.getD_some, NodeId.str.injEq] at this
    subst this
    rw [hu.inj hr hr' hi hi'] 
    rw [hu.inj hr hr' hi hi'] at hd
    exact hd
  · intro hd
    exact ⟨r, hr, hd⟩

/-- **C63 (connected)**.  If the attribute 'parent' of nodes and words, where it is given, names the `<node>` or `<sentence>` around the element, and all nodes and words are inside of a sentence, then the root covers all of them: there is a path of dominance edges. -/
theorem c63_connected (hok : ExpOk text) (name : Option String) (hp : precedence = true → 2 ≤ text.words.length) {g : DG} (h : expRead name ns precedence o text = .ok g)
    (hpar : ∀ r ∈ text.descs [], r.2.tag = "node" ∨ r.2.tag = "word" → ∃ a, r.1.find? (fun a => decide (a.tag ∈ ["node", "sentence"])) = some a ∧ (∃ s ∈ r.1, s.tag = "sentence") ∧ ∀ p, find r.2.attrs "parent" = some p → a.id = some p)
    {r : XRow} (hr : r ∈ text.descs []) (ht : r.2.tag ∈ ["sentence", "node", "word"]) : g.Covers g.root (.str (r.2.id.getD "")) := by
  obtain ⟨g', h1, hc⟩ := c63_content (ns := ns) (o := o) hok name hp
  rw [h] at h1
  obtain rfl := Except.ok.inj h1
  rw [hc.root]
  have hdom := c63_dominance hok name hp h
  have anc : ∀ {r : XRow}, r ∈ text.descs [] → ∀ {a : XElem} {tags : List String}, (∀ t ∈ tags, t ∈ ["node", "sentence"]) → r.1.find? (fun a => decide (a.tag ∈ tags)) = some a → ∃ rest, (rest, a) ∈ text.descs [] ∧ rest.length < r.1.length ∧ a.tag ∈ ["node", "sentence"] ∧ a.id ≠ none := by
    intro r hr a tags htags hf
    obtain ⟨pre, rest, he⟩ := List.append_of_mem (List.mem_of_find?_eq_some hf)
    have hta := htags a.tag (by simpa using List.find?_some hf)
    rcases descs_split hr he with ⟨rfl, _⟩ | hd
    · rw [hok.tag] at hta; simp at hta
    · refine ⟨rest, hd, by rw [he]; simp; omega, hta, ?_⟩
      rcases (hok.rows _ hd).tag with ⟨_, h⟩ | ⟨h, _⟩
      · exact h
      · simp only [expNotes, List.mem_cons, List.not_mem_nil, or_false] at hta h
        rcases h with h | h | h | h | h <;> (rw [h] at hta; simp at hta)
  have key : ∀ n, ∀ {r : XRow}, r.1.length < n → r ∈ text.descs [] → r.2.tag ∈ ["sentence", "node", "word"] → g.Covers text.node (.str (r.2.id.getD "")) := by
    intro n
    induction n with
    | zero => intro r h; omega
    | succ n ih =>
      intro r hlen hr ht
      have up : ∀ {a : XElem} {tags : List String} {p : String}, (∀ t ∈ tags, t ∈ ["node", "sentence"]) → r.1.find? (fun a => decide (a.tag ∈ tags)) = some a → a.id = some p → XRow.DomEdge text.node r (.str p) (.str (r.2.id.getD "")) → g.Covers text.node (.str (r.2.id.getD "")) := by
        intro a tags p htags hf ha hd
        obtain ⟨rest, h1, h2, h3, _⟩ := anc hr htags hf
        have := ih (r := (rest, a)) (show rest.length < n by omega) h1 (by simp only [List.mem_cons, List.not_mem_nil, or_false] at h3 ⊢; rcases h3 with h3 | h3 <;> simp [h3])
        rw [show ((rest, a) : XRow).2.id = some p from ha] at this
        exact this.tail ((hdom _ _).2 ⟨r, hr, hd⟩)
      simp only [List.mem_cons, List.not_mem_nil, or_false] at ht
      rcases ht with ht | ht | ht
      · exact .single ((hdom _ _).2 ⟨r, hr, rfl, .inl ⟨ht, rfl⟩⟩)
      · obtain ⟨a, ha, hs, hpa⟩ := hpar r hr (.inl ht)
        cases hpp : find r.2.attrs "parent" with
        | some p =>
          refine up (fun t ht => ht) ha (hpa p hpp) ⟨rfl, .inr (.inl ⟨ht, ?_⟩)⟩
          unfold XRow.nodeParent
          rw [hpp]; rfl
        | none =>
          obtain ⟨s, hs1, hs2⟩ := hs
          cases hf : r.1.find? (fun a => decide (a.tag ∈ ["sentence"])) with
          | none =>
            rw [List.find?_eq_none] at hf
            exact absurd (hf s hs1) (by simp [hs2])
          | some b =>
            obtain ⟨_, _, _, _, hb⟩ := anc hr (tags := ["sentence"]) (by simp) hf
            obtain ⟨p, hb⟩ := Option.ne_none_iff_exists'.1 hb
            refine up (tags := ["sentence"]) (by simp) hf hb ⟨rfl, .inr (.inl ⟨ht, ?_⟩)⟩
            unfold XRow.nodeParent XRow.closest
            rw [hpp, hf, Option.bind_some, hb]; rfl
      · obtain ⟨a, ha, hs, hpa⟩ := hpar r hr (.inr ht)
        obtain ⟨_, _, _, _, hb⟩ := anc hr (fun t ht => ht) ha
        obtain ⟨p, hb⟩ := Option.ne_none_iff_exists'.1 hb
        refine up (fun t ht => ht) ha hb ⟨rfl, .inr (.inr ⟨ht, ?_⟩)⟩
        unfold XRow.wordParent XRow.closest
        rw [ha, Option.bind_some, hb]
        split
        · cases hpp : find r.2.attrs "parent" with
          | none => rfl
          | some p' =>
            have := hpa p' hpp
            rw [hb] at this
            rw [Option.some.inj this]; rfl
        · rfl
  exact key _ (Nat.lt_succ_self _) hr ht

/-! ### options, errors -/

/-- the options make the reader ignore the element -/
def XRow.Ignored (o : ExpOpts) (r : XRow) : Prop :=
  (r.2.tag = "discRel" ∨ r.2.tag = "relation") ∧ o.relations = true ∨ r.2.tag = "splitRelation" ∧ (o.relations = true ∨ o.splitrelations = true) ∨ r.2.tag = "secEdge" ∧ o.secedges = true

instance (o : ExpOpts) (r : XRow) : Decidable (XRow.Ignored o r) := by unfold XRow.Ignored; infer_instance

theorem edges_ignored {r : XRow} (ho : XRow.Ok r) {root : NodeId} : XRow.edges o ns root r = if XRow.Ignored o r then [] else XRow.edges {} ns root r := by
  unfold XRow.Ignored
  rcases row_tags ho with h | h | h | h | h | h | h | h | h | h | h | h
  · simp [XRow.edges, h]
  · simp [XRow.edges, h]
  · simp [XRow.edges, h]
  · simp [XRow.edges, h]
  · simp [XRow.edges, h]
  · simp [XRow.edges, h]
  · simp [XRow.edges, h]
  · simp [XRow.edges, h]
  · rcases Bool.eq_false_or_eq_true o.relations with h1 | h1 <;> simp [XRow.edges, h, h1]
  · rcases Bool.eq_false_or_eq_true o.relations with h1 | h1 <;> simp [XRow.edges, h, h1]
  · rcases Bool.eq_false_or_eq_true o.secedges with h1 | h1 <;> simp [XRow.edges, h, h1]
  · rcases Bool.eq_false_or_eq_true o.relations with h1 | h1 <;> rcases Bool.eq_false_or_eq_true o.splitrelations with h2 | h2 <;> simp [XRow.edges, h, h1, h2]

/-- **C63 (ignored relations)**.  With the options to ignore relations, split relations or secondary edges, the graph has exactly the edges that the other elements stand for (as if read without these options). -/
theorem c63_ignore (hok : ExpOk text) (name : Option String) (hp : precedence = true → 2 ≤ text.words.length) :
    ∃ g, expRead name ns precedence o text = .ok g ∧
      EdgesAre g (((text.descs []).filter (fun r => decide (¬ XRow.Ignored o r))).flatMap (fun r => (List.replicate (XRow.times r) (XRow.edges {} ns text.node r)).flatten) ++ if precedence then precEdges ns text.node text.words else []) := by
  obtain ⟨g, h1, h2⟩ := c63_content (ns := ns) (o := o) hok name hp
  refine ⟨g, h1, ?_⟩
  have h := h2.edges
  unfold XElem.edges at h
  have e : ∀ L : List XRow, (∀ r ∈ L, XRow.Ok r) → L.flatMap (fun r => (List.replicate (XRow.times r) (XRow.edges o ns text.node r)).flatten) =
      (L.filter (fun r => decide (¬ XRow.Ignored o r))).flatMap (fun r => (List.replicate (XRow.times r) (XRow.edges {} ns text.node r)).flatten) := by
    intro L
    induction L with
    | nil => intro _; rfl
    | cons r L ih =>
      intro h
      rw [List.flatMap_cons, ih fun x hx => h x (List.mem_cons_of_mem _ hx), List.filter_cons, edges_ignored (h r (by simp))]
      by_cases hi : XRow.Ignored o r
      · simp [hi]
      · simp [hi]
  rwa [e _ hok.rows] at h

/-- **C63 (no pointing relations)**.  If relations and secondary edges are ignored, no edge of the graph is a pointing relation. -/
theorem c63_no_pointing (hok : ExpOk text) (name : Option String) (hp : precedence = true → 2 ≤ text.words.length) (ho : o.relations = true ∧ o.secedges = true) {g : DG} (h : expRead name ns precedence o text = .ok g) :
    ∀ u v a, g.EdgeWith u v a → find a "edge_type" ≠ some (strV "points_to") := by
  intro u v a ha
  obtain ⟨g', h1, hc⟩ := c63_ignore (ns := ns) (o := o) hok name hp
  rw [h] at h1
  obtain rfl := Except.ok.inj h1
  obtain ⟨e, he, _, _, h3, _⟩ := hc.sound u v a ha
  rw [h3 _ (by decide)]
  rcases List.mem_append.1 he with he | he
  · obtain ⟨r, hr, he⟩ := List.mem_flatMap.1 he
    obtain ⟨hr, hi⟩ := List.mem_filter.1 hr
    have hi := of_decide_eq_true hi
    obtain ⟨l, hl, he⟩ := List.mem_flatten.1 he
    rw [(List.mem_replicate.1 hl).2] at he
    unfold XRow.Ignored at hi
    rcases row_tags (hok.rows r hr) with h | h | h | h | h | h | h | h | h | h | h | h
    · simp [XRow.edges, h] at he
      obtain ⟨w, _, rfl⟩ := he
      simp [find_cons, strV]
    · simp [XRow.edges, h] at he
      obtain ⟨w, _, rfl⟩ := he
      simp [find_cons, strV]
    · simp [XRow.edges, h] at he
      obtain ⟨w, _, rfl⟩ := he
      simp [find_cons, strV]
    · simp [XRow.edges, h] at he
      rw [he]; simp [find_cons, strV]
    · simp [XRow.edges, h] at he
      rw [he]; simp [find_cons, strV]
    · simp [XRow.edges, h] at he
      obtain ⟨w, _, rfl⟩ := he
      simp [find_cons, strV]
    · simp [XRow.edges, h] at he
      rw [he]; simp [find_cons, strV]
    · simp [XRow.edges, h] at he
    · simp [h, ho] at hi
    · simp [h, ho] at hi
    · simp [h, ho] at hi
    · simp [h, ho] at hi
  · split at he
    · unfold precEdges at he
      obtain ⟨p, _, rfl⟩ := List.mem_map.1 he
      simp [precEdge, find_cons, strV]
    · cases he

theorem foldlM_bad {α : Type} {f : DG → α → Except PyErr DG} {x : α} (hf : ∀ g, (f g x).isOk = false) {L : List α} (hx : x ∈ L) (g : DG) : (L.foldlM f g).isOk = false := by
  induction L generalizing g with
  | nil => cases hx
  | cons y L ih =>
    rw [List.foldlM_cons]
    cases e : f g y with
    | error => rfl
    | ok g' =>
      rcases List.mem_cons.1 hx with rfl | hx
      · have := hf g
        rw [e] at this; cases this
      · exact ih hx g'

/-- **C63 (unknown elements)**.  A text with an element of another kind, anywhere, cannot be read. -/
theorem c63_unknown (name : Option String) {r : XRow} (hr : r ∈ text.descs []) (ht : r.2.tag ∉ expOwners ++ expNotes) : (expRead name ns precedence o text).isOk = false := by
  have hstep : ∀ g, (expStep o g r).isOk = false := by
    intro g
    simp only [expOwners, expNotes, List.mem_append, List.mem_cons, List.not_mem_nil, or_false, not_or] at ht
    simp only [expStep, ht, if_false]
    rfl
  have helem : ∀ g, (expElem o r.1 g r.2).isOk = false := by
    intro g
    rw [expElem_eq]
    exact foldlM_bad hstep (self_reads r.2 r.1) g
  have key : ∀ (g0 : DG) (K : DG → Except PyErr DG), ((text.descs []).foldlM (fun g r => expElem o r.1 g r.2) g0 >>= K).isOk = false := by
    intro g0 K
    have := foldlM_bad (f := fun g (r : XRow) => expElem o r.1 g r.2) helem hr g0
    cases e : (text.descs []).foldlM (fun g r => expElem o r.1 g r.2) g0 with
    | error => rfl
    | ok g => rw [e] at this; cases this
  unfold expRead
  cases text.id with
  | none => rfl
  | some i => exact key _ _

/-! ### an example -/

/-- the checks of `XRow.Ok` -/
def rowOk (r : XRow) : Bool :=
  ((decide (r.2.tag ∈ expOwners) && r.2.id.isSome) || (decide (r.2.tag ∈ expNotes) && r.2.id.isNone && (r.1.head?.bind XElem.id).isSome)) &&
    decide ((keys r.2.attrs).Nodup) && (XRow.required r.2.tag).all (fun k => decide (k ∈ keys r.2.attrs)) && !(decide (r.2.tag = "relation") && decide ("parent" ∈ keys r.2.attrs)) &&
    (!decide (r.2.tag = "sentence") || match find r.2.attrs "span" with
      | none => true
      | some s => (convertSpanstring s).isOk)

theorem rowOk_ok {r : XRow} (h : rowOk r = true) : XRow.Ok r := by
  simp only [rowOk, Bool.and_eq_true, Bool.or_eq_true, decide_eq_true_eq, List.all_eq_true, Bool.not_eq_true', Bool.and_eq_false_iff, decide_eq_false_iff_not] at h
  obtain ⟨⟨⟨⟨h1, h2⟩, h3⟩, h4⟩, h5⟩ := h
  refine ⟨?_, h2, h3, ?_, ?_⟩
  · rcases h1 with ⟨a, b⟩ | ⟨⟨a, b⟩, c⟩
    · exact .inl ⟨a, Option.isSome_iff_ne_none.1 b⟩
    · right
      refine ⟨a, Option.isNone_iff_eq_none.1 b, ?_⟩
      cases hp : r.1 with
      | nil => rw [hp] at c; cases c
      | cons p rest =>
        rw [hp, List.head?_cons, Option.bind_some] at c
        obtain ⟨i, hi⟩ := Option.isSome_iff_exists.1 c
        exact ⟨p, rest, i, rfl, hi⟩
  · intro ht
    exact h4.resolve_left fun h => h ht
  · intro ht s hs
    rcases h5 with h | h
    · exact absurd ht h
    · rw [hs] at h; exact h

theorem expOk_of {text : XElem} (h1 : text.tag = "text") (h2 : text.id ≠ none ∧ text.id ≠ some "") (h3 : (text.descs []).all rowOk = true) : ExpOk text :=
  ⟨h1, h2, fun r hr => rowOk_ok (List.all_eq_true.1 h3 r hr)⟩

/-- a text with two sentences, discourse units and all kinds of annotations -/
def c63Text : XElem :=
  .mk "text" (some "text_1") [] [
    .mk "edu" (some "edu_1") [("type", "x")] [
      .mk "discRel" none [("relation", "Cause"), ("arg2", "edu_2")] [],
      .mk "topic" (some "topic_1") [("description", "weather")] [
      .mk "sentence" (some "s1") [] [
        .mk "node" (some "s1_n1") [("cat", "NX")] [
          .mk "relation" none [("type", "anaphoric"), ("target", "s1_3")] [],
          .mk "ne" (some "ne_1") [("type", "PER")] [.mk "word" (some "s1_1") [("form", "Ann"), ("pos", "NE")] []],
          .mk "word" (some "s1_2") [("form", "sleeps"), ("parent", "s1_n1")] []],
        .mk "word" (some "s1_3") [("form", "because")] [.mk "connective" none [("konn", "weil"), ("rel1", "Cause")] [], .mk "secEdge" none [("cat", "X"), ("parent", "s1_n1")] []]]]],
    .mk "edu-range" (some "er_1") [] [.mk "edu" (some "edu_2") [] [
      .mk "sentence" (some "s2") [] [.mk "splitRelation" none [("type", "split"), ("target", "s1_1 s1_2")] [],
        .mk "node" (some "s2_n1") [("cat", "SIMPX"), ("parent", "s2")] [.mk "word" (some "s2_1") [("form", "rains")] []]]]]]

theorem c63Text_ok : ExpOk c63Text := expOk_of rfl (by decide) (by decide +kernel)

theorem c63Text_unique : UniqueIds c63Text := by unfold UniqueIds; decide +kernel

example : ∃ g, expRead none "exportxml" true {} c63Text = .ok g ∧ ExpContent {} "exportxml" true c63Text g :=
  c63_content c63Text_ok none (fun _ => by decide +kernel)

/-- the words of the example -/
example : (expRead none "exportxml" true {} c63Text).toOption.map (·.tokens) = some [.str "s1_1", .str "s1_2", .str "s1_3", .str "s2_1"] := by decide +kernel

/-- the conditions of the other theorems are met -/
theorem c63Text_words : ∀ r ∈ c63Text.descs [], r.2.tag = "word" → ∀ x ∈ r.2.descs r.1, x.2.tag ≠ "word" := by decide +kernel

theorem c63Text_once : ∀ r ∈ c63Text.descs [], r.1.head?.any (fun a => decide (a.tag = "word")) = true → (XRow.edges ⟨false, false, true⟩ "exportxml" c63Text.node r).length = 0 := by decide +kernel

example : ∃ g, expRead none "exportxml" true ⟨false, false, true⟩ c63Text = .ok g ∧
    EdgesAre g ((c63Text.descs []).flatMap (XRow.edges ⟨false, false, true⟩ "exportxml" c63Text.node) ++ precEdges "exportxml" c63Text.node c63Text.words) :=
  c63_once_partial (precedence := true) c63Text_ok none (fun _ => by decide +kernel) (fun r hr h => List.eq_nil_of_length_eq_zero (c63Text_once r hr h))

example : (c63Text.descs []).all (fun r => !(decide (r.2.tag = "node") || decide (r.2.tag = "word")) || (match r.1.find? (fun a => decide (a.tag ∈ ["node", "sentence"])) with
    | none => false
    | some a => r.1.any (fun s => decide (s.tag = "sentence")) && match find r.2.attrs "parent" with
      | none => true
      | some p => decide (a.id = some p))) = true := by decide +kernel

/-- a discourse unit whose child has an unknown tag -/
example : (expRead none "exportxml" false {} (.mk "text" (some "t") [] [.mk "edu" (some "e") [] [.mk "comment" none [] []]])).isOk = false :=
  c63_unknown none (r := ([.mk "edu" (some "e") [] [.mk "comment" none [] []], .mk "text" (some "t") [] [.mk "edu" (some "e") [] [.mk "comment" none [] []]]], .mk "comment" none [] []))
    (by simp [XElem.descs, XElem.descsL]) (by decide)

/-! ### what fails -/

/-- a pronoun with its antecedent -/
def c63Pronoun : XElem :=
  .mk "text" (some "text_1") [] [.mk "sentence" (some "s1") [] [.mk "word" (some "s1_1") [("form", "Ann")] [], .mk "word" (some "s1_2") [("form", "she")] [.mk "relation" none [("type", "anaphoric"), ("target", "s1_1")] []]]]

/-- **C63 (fails)**.  The coreference relation of a pronoun, i.e. of a word, is in the graph twice: the children of a word are parsed with the word and again with the descendants of the text. -/
theorem c63_fails_twice : ExpOk c63Pronoun ∧ ((expRead none "exportxml" false {} c63Pronoun).toOption.map (fun g => (g.edges.filter (fun e => decide (e.1 = .str "s1_2"))).map (fun e => (e.2.1, e.2.2.1)))) = some [(.str "s1_1", .int 0), (.str "s1_1", .int 1)] :=
  ⟨expOk_of rfl (by decide) (by decide +kernel), by decide +kernel⟩

/-- **C63 (fails)**.  A named entity spans itself, if a child element is an annotation. -/
theorem c63_fails_loop : ExpOk (.mk "text" (some "t") [] [.mk "ne" (some "ne_1") [("type", "PER")] [.mk "relation" none [("type", "anaphoric")] []]]) ∧
    ((expRead none "exportxml" false {} (.mk "text" (some "t") [] [.mk "ne" (some "ne_1") [("type", "PER")] [.mk "relation" none [("type", "anaphoric")] []]])).toOption.map (fun g => g.edges.map (fun e => (e.1, e.2.1)))) = some [(.str "ne_1", .str "ne_1")] :=
  ⟨expOk_of rfl (by decide) (by decide +kernel), by decide +kernel⟩

/-- **C63 (fails)**.  The attributes of a sentence are not in the graph. -/
theorem c63_fails_sentence : ((expRead none "exportxml" false {} (.mk "text" (some "t") [] [.mk "sentence" (some "s1") [("origin", "taz")] []])).toOption.map (fun g => (g.nodeAttr (.str "s1") "exportxml:origin", g.nodeAttr (.str "s1") "tokens"))) = some (none, some (.list [])) := by decide +kernel

end DG
end Dg
