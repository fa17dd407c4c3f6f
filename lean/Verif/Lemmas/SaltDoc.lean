import Verif.Spec.SaltDoc
import Verif.Lemmas.SaltWrite
import Mathlib.Data.List.Perm.Basic

namespace Dg
open Dict
open DG (mapE mapE_ok bind_ok_iff)

/-- what is true of every object made from an element -/
structure SaltObj.Made (o : SaltObj) : Prop where
  cls : o.cls ∈ [SaltClass.node, .primaryText, .edge, .textual, .dominance, .layer]
  ends : o.cls ∈ [SaltClass.edge, .textual, .dominance] → ∃ s t, o.source = some s ∧ o.target = some t
  noEnds : o.cls ∉ [SaltClass.edge, .textual, .dominance] → o.source = none
  offsets : o.cls = .textual → ∃ a b, o.onset = some a ∧ o.offset = some b
  noOffsets : o.cls ≠ .textual → o.onset = none ∧ o.offset = none
  text : o.cls = .primaryText ↔ o.text.isSome
  plain : o.tokens = none ∧ o.spans = none ∧ o.dominates = none ∧ o.dominatedBy = none

theorem element_common {e : SXml} {o : SaltObj} (h : saltElement e = .ok o) : o = o.common := by
  unfold saltElement at h
  simp only [bind_ok_iff] at h
  obtain ⟨_, _, _, _, _, _, _, _, h⟩ := h
  cases h
  rfl

theorem made_of_read {e : SXml} {o : SaltObj} {k : SaltKind} (h : readKind k e = .ok o) : o.Made := by
  cases k <;> simp only [readKind, saltNode, saltPrimaryText, saltEdge, saltTextual, saltDominance, saltLayer, bind_ok_iff] at h
  · obtain ⟨o', h1, _, _, _, _, h⟩ := h
    cases h
    rw [element_common h1]
    exact ⟨by simp, by simp, by simp [SaltObj.common], by simp, by simp [SaltObj.common], by simp [SaltObj.common], rfl, rfl, rfl, rfl⟩
  · obtain ⟨_, ⟨o', h1, _, _, _, _, h2⟩, _, _, h⟩ := h
    cases h2
    cases h
    rw [element_common h1]
    exact ⟨by simp, by simp, by simp [SaltObj.common], by simp, by simp [SaltObj.common], by simp, rfl, rfl, rfl, rfl⟩
  · obtain ⟨o', h1, _, _, _, _, _, _, h⟩ := h
    cases h
    rw [element_common h1]
    exact ⟨by simp, by simp, by simp [SaltObj.common], by simp, by simp [SaltObj.common], by simp [SaltObj.common], rfl, rfl, rfl, rfl⟩
  · obtain ⟨_, ⟨o', h1, _, _, _, _, _, _, h2⟩, _, _, _, _, h⟩ := h
    cases h2
    cases h
    rw [element_common h1]
    exact ⟨by simp, by simp, by simp [SaltObj.common], by simp, by simp [SaltObj.common], by simp [SaltObj.common], rfl, rfl, rfl, rfl⟩
  · obtain ⟨_, ⟨o', h1, _, _, _, _, _, _, h2⟩, _, _, h⟩ := h
    cases h2
    cases h
    rw [element_common h1]
    exact ⟨by simp, by simp, by simp [SaltObj.common], by simp, by simp [SaltObj.common], by simp [SaltObj.common], rfl, rfl, rfl, rfl⟩
  · obtain ⟨o', h1, h⟩ := h
    cases h
    rw [element_common h1]
    exact ⟨by simp, by simp, by simp [SaltObj.common], by simp, by simp [SaltObj.common], by simp [SaltObj.common], rfl, rfl, rfl, rfl⟩

theorem made_instance {e : SXml} {o : SaltObj} (h : saltInstance e = .ok o) : o.Made := by
  obtain ⟨_, _, _, _, hr⟩ := instance_iff.1 h
  exact made_of_read hr

/-- the objects of a document are made from elements -/
structure SaltDoc.Made (d : SaltDoc) : Prop where
  nodes : ∀ o ∈ d.nodes, o.Made
  edges : ∀ o ∈ d.edges, o.Made

theorem made_document {root : SXml} {d : SaltDoc} (h : saltDocument root = .ok d) : d.Made := by
  unfold saltDocument at h
  simp only [bind_ok_iff, mapE_ok] at h
  obtain ⟨_, _, ns, hn, es, he, ls, hl, h⟩ := h
  cases h
  constructor
  · intro o ho
    obtain ⟨c, _, hc⟩ := forall₂_mem_right hn ho
    exact made_instance hc
  · intro o ho
    obtain ⟨c, _, hc⟩ := forall₂_mem_right he ho
    exact made_instance hc

theorem insideAll_flat : ∀ {cs : List SXml}, (∀ c ∈ cs, (c.tag = "labels" ∧ c.children = []) ∨ (c.tag ∈ ["nodes", "edges", "layers"] ∧ ∀ d ∈ c.children, d.tag = "labels" ∧ d.children = [])) →
    ∀ tag ∈ ["nodes", "edges", "layers"], (SXml.insideAll cs).filter (fun e => e.tag = tag) = cs.filter (fun e => e.tag = tag)
  | [], _, _, _ => rfl
  | c :: cs, h, tag, ht => by
    have ih := insideAll_flat (fun c hc => h c (.tail _ hc)) tag ht
    have hleaf : ∀ ds : List SXml, (∀ d ∈ ds, d.tag = "labels" ∧ d.children = []) → (SXml.insideAll ds).filter (fun e => decide (e.tag = tag)) = [] := by
      intro ds
      induction ds with
      | nil => intro _; rfl
      | cons d ds ih2 =>
        intro hd
        obtain ⟨t, a, k⟩ := d
        have h1 := hd _ (.head _)
        have h2 : k = [] := h1.2
        have h3 : t = "labels" := h1.1
        subst h2
        subst h3
        simp only [SXml.insideAll, SXml.inside, List.nil_append]
        rw [List.filter_cons, if_neg, ih2 (fun d hx => hd d (.tail _ hx))]
        intro hx
        have hx := of_decide_eq_true hx
        have hx : "labels" = tag := hx
        subst hx
        simp at ht
    have hin : (SXml.inside c).filter (fun e => decide (e.tag = tag)) = [] := by
      obtain ⟨t, a, k⟩ := c
      simp only [SXml.inside]
      rcases h _ (.head _) with ⟨_, h2⟩ | ⟨_, h2⟩
      · have : k = [] := h2
        subst this
        rfl
      · exact hleaf k h2
    simp only [SXml.insideAll, List.filter_cons, List.filter_append, hin, List.nil_append, ih]

theorem elements_flat {root : SXml} (h : root.Flat) {tag : String} (ht : tag ∈ ["nodes", "edges", "layers"]) : saltElements root tag = root.kids tag := by
  obtain ⟨t, a, cs⟩ := root
  exact insideAll_flat h tag ht

theorem docId_iff {root : SXml} {id : String} : saltDocId root = .ok id ↔ root.DocId id := by
  unfold saltDocId SXml.DocId
  generalize root.children = cs
  induction cs with
  | nil => simp
  | cons c cs ih =>
    rw [List.filter_cons]
    by_cases hc : c.tag = "labels" ∧ find c.attrs "name" = some "id"
    · rw [if_pos (by simpa using hc)]
      dsimp only
      rw [attrib_ok]
      constructor
      · intro h
        exact ⟨[], c, cs, rfl, hc.1, hc.2, h, by simp⟩
      · rintro ⟨pre, l, post, he, h1, h2, h3, h4⟩
        cases pre with
        | nil =>
          cases he
          exact h3
        | cons x xs =>
          cases he
          exact absurd hc (h4 c (.head _))
    · rw [if_neg (by simpa using hc), ih]
      constructor
      · rintro ⟨pre, l, post, he, h1, h2, h3, h4⟩
        refine ⟨c :: pre, l, post, by rw [he]; rfl, h1, h2, h3, ?_⟩
        intro x hx
        rcases List.mem_cons.1 hx with rfl | hx
        · exact hc
        · exact h4 x hx
      · rintro ⟨pre, l, post, he, h1, h2, h3, h4⟩
        cases pre with
        | nil =>
          cases he
          exact absurd ⟨h1, h2⟩ hc
        | cons x xs =>
          cases he
          exact ⟨xs, l, post, rfl, h1, h2, h3, fun x hx => h4 x (.tail _ hx)⟩

/-- the nodes of the graph after the first loop -/
theorem addNodes_ok : ∀ (es : List SXml) (i : Nat) (g : SaltGraph) (g' : SaltGraph), (∀ n : Int, (i : Int) ≤ n → find g.nodes n = none) → SaltGraph.addNodes g i es = .ok g' →
    ∃ os, mapE saltInstance es = .ok os ∧ g'.edges = g.edges ∧ (∀ (j : Nat) o, os[j]? = some o → find g'.nodes ((i + j : Nat) : Int) = some o.dict) ∧
      ∀ n : Int, (∀ j : Nat, j < os.length → n ≠ ((i + j : Nat) : Int)) → find g'.nodes n = find g.nodes n
  | [], i, g, g', _, h => by
    cases h
    exact ⟨[], rfl, rfl, by simp, fun _ _ => rfl⟩
  | e :: es, i, g, g', hf, h => by
    unfold SaltGraph.addNodes at h
    simp only [bind_ok_iff] at h
    obtain ⟨o, ho, h⟩ := h
    have hnew : find (g.addNode i o.dict).nodes i = some o.dict := by
      unfold SaltGraph.addNode
      dsimp only
      rw [find_put_self, hf i (Int.le_refl _)]
    have hold : ∀ n : Int, n ≠ i → find (g.addNode i o.dict).nodes n = find g.nodes n := by
      intro n hn
      exact find_put_ne _ _ (fun h => hn h.symm)
    obtain ⟨os, h1, h2, h3, h4⟩ := addNodes_ok es (i + 1) _ g' (by
      intro n hn
      rw [hold n (by omega)]
      exact hf n (by omega)) h
    refine ⟨o :: os, ?_, h2, ?_, ?_⟩
    · unfold mapE
      rw [ho, h1]
      rfl
    · intro j o' hj
      cases j with
      | zero =>
        cases hj
        have := h4 (i : Int) (fun j _ => by omega)
        rw [Nat.add_zero, this, hnew]
      | succ j =>
        have := h3 j o' hj
        rw [show i + (j + 1) = i + 1 + j by omega]
        exact this
    · intro n hn
      have h0 : n ≠ i := by simpa using hn 0 (by simp)
      rw [h4 n (fun j hj => by
        have := hn (j + 1) (by simpa using hj)
        intro e
        apply this
        rw [e]
        omega), hold n h0]

end Dg
