import Verif.Lemmas.SaltWrite

namespace Dg
open Dict
open DG (mapE mapE_ok bind_ok_iff)

/-- **C67 (reading)**.  An element with only labels inside can be read if and only if it stands for an object (type known, labels complete, named, references and numbers well-formed), and what is
read is an object it stands for: all labels in order, name and ID, layers, ends, offsets, text and annotations. -/
theorem c67_read (e : SXml) (h : ∀ c ∈ e.children, c.tag = "labels") :
    (∀ o, saltInstance e = .ok o → e.Says o) ∧ ((∃ o, saltInstance e = .ok o) ↔ ∃ o, e.Says o) := by
  have h1 : ∀ o, saltInstance e = .ok o → e.Says o := by
    intro o ho
    obtain ⟨x, k, hx, hk, hr⟩ := instance_iff.1 ho
    obtain ⟨hc, hs⟩ := read_says h hr
    have : x = o.xsi := Option.some.inj (hx.symm.trans hc.type)
    subst this
    exact ⟨hc.labels, hc.name, hc.id, hc.type, k, hk, hs⟩
  refine ⟨h1, fun ⟨o, ho⟩ => ⟨o, h1 o ho⟩, ?_⟩
  rintro ⟨o, hl, hn, hi, ht, k, hk, hs⟩
  exact ⟨_, instance_iff.2 ⟨_, k, ht, hk, says_read h ⟨hl, hn, hi, ht⟩ hs⟩⟩

/-- an element of the example document of the repository (data/saltxmi-example.salt), with a second annotation -/
def sampleLabel (t : String) (ns : Option String) (n hex v : String) : SXml :=
  .mk "labels" ([(xsiType, t)] ++ (match ns with | some n => [("namespace", n)] | none => []) ++ [("name", n), ("value", hex), ("valueString", v)]) []

/-- a node -/
def sampleSaltNode : SXml := .mk "nodes" [(xsiType, "sDocumentStructure:SStructure"), ("layers", "//@layers.1 //@layers.12")]
  [sampleLabel "saltCore:SFeature" (some "salt") "SNAME" "ACED0005740007636F6E73745F34" "const_4", sampleLabel "saltCore:SElementId" (some "graph") "id" "AC" "maz#const_4",
   sampleLabel "saltCore:SAnnotation" none "tiger.cat" "AC" "PP", sampleLabel "saltCore:SAnnotation" none "tiger.cat" "AC" "NP"]

/-- a dominance relation -/
def sampleSaltEdge : SXml := .mk "edges" [(xsiType, "sDocumentStructure:SDominanceRelation"), ("source", "//@nodes.251"), ("target", "//@nodes.134"), ("layers", "//@layers.2")]
  [sampleLabel "saltCore:SFeature" (some "salt") "SNAME" "AC" "sDomRel185", sampleLabel "saltCore:SAnnotation" none "tiger.func" "AC" "OC"]

/-- a textual relation, which belongs to no layer -/
def sampleSaltTextual : SXml := .mk "edges" [(xsiType, "sDocumentStructure:STextualRelation"), ("source", "//@nodes.2"), ("target", "//@nodes.0")]
  [sampleLabel "saltCore:SFeature" (some "salt") "SNAME" "AC" "sTextRel1", sampleLabel "saltCore:SFeature" (some "saltCommon") "SSTART" "AC" "8", sampleLabel "saltCore:SFeature" (some "saltCommon") "SEND" "AC" "18"]

/-- a layer -/
def sampleSaltLayer : SXml := .mk "layers" [(xsiType, "saltCore:SLayer"), ("nodes", "//@nodes.3 //@nodes.17"), ("edges", "//@edges.0")] [sampleLabel "saltCore:SFeature" (some "salt") "SNAME" "AC" "tiger"]

example : ((saltInstance sampleSaltNode).toOption.map (fun o => (o.name, o.elementId, o.layers))) = some ("const_4", some "maz#const_4", some [1, 12]) := by decide +kernel
example : ((saltInstance sampleSaltNode).toOption.map (fun o => (o.features.map (find · "tiger.cat"), o.labels.length))) = some (some (some "NP"), 4) := by decide +kernel
example : ((saltInstance sampleSaltEdge).toOption.map (fun o => (o.source, o.target, o.layers, o.features.map (find · "tiger.func")))) = some (some 251, some 134, some [2], some (some "OC")) := by decide +kernel
example : ((saltInstance sampleSaltTextual).toOption.map (fun o => (o.source, o.onset, o.offset, o.layers))) = some (some 2, some 8, some 18, some []) := by decide +kernel
example : ((saltInstance sampleSaltLayer).toOption.map (fun o => (o.name, o.nodes, o.edges))) = some ("tiger", some [3, 17], some [0]) := by decide +kernel

theorem normal_labels {e : SXml} {o : SaltObj} (h : List.Forall₂ SXml.SaysLabel e.children o.labels) : ∀ l ∈ o.labels, l.Normal := by
  intro l hl
  obtain ⟨c, _, hc⟩ := forall₂_mem_right h hl
  exact normal_of_says hc

/-- an element with the labels of an object, its type, and the same references stands for the object -/
theorem written_says {e' : SXml} {o : SaltObj} (hn : ∀ l ∈ o.labels, l.Normal) (hch : e'.children = o.labels.map SaltLabel.toEtree) (hx : find e'.attrs xsiType = some o.xsi)
    (h1 : firstLabel o.labels "SNAME" = some o.name) (h2 : firstLabel o.labels "id" = o.elementId) : e'.OnlyLabels ∧ e'.SaysCommon o := by
  refine ⟨?_, ?_, h1, h2, hx⟩
  · intro c hc
    rw [hch] at hc
    obtain ⟨l, _, rfl⟩ := List.mem_map.1 hc
    rfl
  · rw [hch]
    exact labels_written hn

theorem find_ref {k : String} (h : k ∈ ["name", "value", "valueString", "namespace", "layers", "source", "target", "nodes", "edges"]) (x : String) (d : Dict String String) : find ((xsiType, x) :: d) k = find d k := by
  rw [find_cons, if_neg (xsi_ne h)]

/-- what is written for an object that has been read -/
theorem written {e : SXml} (h : e.OnlyLabels) {o : SaltObj} {k : SaltKind} (hr : readKind k e = .ok o) :
    ∃ as, o.toEtree = .ok (.mk k.tag ((xsiType, o.xsi) :: as) (o.labels.map SaltLabel.toEtree)) ∧ (SXml.mk k.tag ((xsiType, o.xsi) :: as) (o.labels.map SaltLabel.toEtree)).SaysKind o k ∧
      keys as = k.refs.map Prod.fst ∧ ∀ a kind, (a, kind) ∈ k.refs → ∃ ids, find as a = some (saltRefs kind ids) ∧
        (k ≠ .layer → a = "layers" → o.layers = some ids) ∧ (a = "source" → ∃ s, o.source = some s ∧ ids = [s]) ∧ (a = "target" → ∃ s, o.target = some s ∧ ids = [s]) ∧
        (a = "nodes" → ∃ ns, o.nodes = some ns ∧ ids = ns.map Int.ofNat) ∧ (a = "edges" → ∃ ns, o.edges = some ns ∧ ids = ns.map Int.ofNat) := by
  obtain ⟨hc, hk⟩ := read_says h hr
  cases k with
  | node =>
    obtain ⟨ids, fs, hl, hf, ho⟩ := hk
    refine ⟨[("layers", saltRefs "layers" ids)], ?_, ⟨ids, fs, ?_, hf, ho⟩, rfl, ?_⟩
    · rw [ho]
      rfl
    · refine refs_written (kind := "layers") (by decide) (by decide) ?_
      rw [SXml.attrs, find_ref (by simp)]
      rfl
    · intro a kind hm
      simp only [SaltKind.refs, List.mem_singleton, Prod.mk.injEq] at hm
      obtain ⟨rfl, rfl⟩ := hm
      refine ⟨ids, rfl, fun _ _ => by rw [ho], ?_, ?_, ?_, ?_⟩ <;> intro h <;> exact absurd h (by decide)
  | text =>
    obtain ⟨ids, fs, t, hl, hf, ht, ho⟩ := hk
    refine ⟨[("layers", saltRefs "layers" ids)], ?_, ⟨ids, fs, t, ?_, hf, ht, ho⟩, rfl, ?_⟩
    · rw [ho]
      rfl
    · refine refs_written (kind := "layers") (by decide) (by decide) ?_
      rw [SXml.attrs, find_ref (by simp)]
      rfl
    · intro a kind hm
      simp only [SaltKind.refs, List.mem_singleton, Prod.mk.injEq] at hm
      obtain ⟨rfl, rfl⟩ := hm
      refine ⟨ids, rfl, fun _ _ => by rw [ho], ?_, ?_, ?_, ?_⟩ <;> intro h <;> exact absurd h (by decide)
  | layer =>
    obtain ⟨ns, es, hn, he, ho⟩ := hk
    refine ⟨[("nodes", saltRefs "nodes" (ns.map Int.ofNat)), ("edges", saltRefs "edges" (es.map Int.ofNat))], ?_, ⟨ns, es, ?_, ?_, ho⟩, rfl, ?_⟩
    · rw [ho]
      rfl
    · refine numbers_written (kind := "nodes") (by decide) ?_
      rw [SXml.attrs, find_ref (by simp)]
      rfl
    · refine numbers_written (kind := "edges") (by decide) ?_
      rw [SXml.attrs, find_ref (by simp)]
      rfl
    · intro a kind hm
      simp only [SaltKind.refs, List.mem_cons, Prod.mk.injEq, List.not_mem_nil, or_false] at hm
      rcases hm with ⟨rfl, rfl⟩ | ⟨rfl, rfl⟩
      · refine ⟨_, rfl, fun h => absurd rfl h, ?_, ?_, fun _ => ⟨ns, by rw [ho], rfl⟩, ?_⟩ <;> intro h <;> exact absurd h (by decide)
      · refine ⟨_, rfl, fun h => absurd rfl h, ?_, ?_, ?_, fun _ => ⟨es, by rw [ho], rfl⟩⟩ <;> intro h <;> exact absurd h (by decide)
  | edge =>
    obtain ⟨ids, s, t, hl, hs, ht, ho⟩ := hk
    refine ⟨[("source", saltRefs "nodes" [s]), ("target", saltRefs "nodes" [t]), ("layers", saltRefs "layers" ids)], ?_, ⟨ids, s, t, ?_, ?_, ?_, ho⟩, rfl, ?_⟩
    · rw [ho]
      rfl
    · refine refs_written (kind := "layers") (by decide) (by decide) ?_
      rw [SXml.attrs, find_ref (by simp)]
      rfl
    · refine ref_written (kind := "nodes") (by decide) ?_
      rw [SXml.attrs, find_ref (by simp)]
      rfl
    · refine ref_written (kind := "nodes") (by decide) ?_
      rw [SXml.attrs, find_ref (by simp)]
      rfl
    · intro a kind hm
      simp only [SaltKind.refs, List.mem_cons, Prod.mk.injEq, List.not_mem_nil, or_false] at hm
      rcases hm with ⟨rfl, rfl⟩ | ⟨rfl, rfl⟩ | ⟨rfl, rfl⟩
      · refine ⟨_, rfl, fun _ h => absurd h (by decide), fun _ => ⟨s, by rw [ho], rfl⟩, ?_, ?_, ?_⟩ <;> intro h <;> exact absurd h (by decide)
      · refine ⟨_, rfl, fun _ h => absurd h (by decide), ?_, fun _ => ⟨t, by rw [ho], rfl⟩, ?_, ?_⟩ <;> intro h <;> exact absurd h (by decide)
      · refine ⟨_, rfl, fun _ _ => by rw [ho], ?_, ?_, ?_, ?_⟩ <;> intro h <;> exact absurd h (by decide)
  | textual =>
    obtain ⟨ids, s, t, a, b, a', b', hl, hs, ht, ha, hb, ha', hb', ho⟩ := hk
    refine ⟨[("source", saltRefs "nodes" [s]), ("target", saltRefs "nodes" [t]), ("layers", saltRefs "layers" ids)], ?_, ⟨ids, s, t, a, b, a', b', ?_, ?_, ?_, ha, hb, ha', hb', ho⟩, rfl, ?_⟩
    · rw [ho]
      rfl
    · refine refs_written (kind := "layers") (by decide) (by decide) ?_
      rw [SXml.attrs, find_ref (by simp)]
      rfl
    · refine ref_written (kind := "nodes") (by decide) ?_
      rw [SXml.attrs, find_ref (by simp)]
      rfl
    · refine ref_written (kind := "nodes") (by decide) ?_
      rw [SXml.attrs, find_ref (by simp)]
      rfl
    · intro a kind hm
      simp only [SaltKind.refs, List.mem_cons, Prod.mk.injEq, List.not_mem_nil, or_false] at hm
      rcases hm with ⟨rfl, rfl⟩ | ⟨rfl, rfl⟩ | ⟨rfl, rfl⟩
      · refine ⟨_, rfl, fun _ h => absurd h (by decide), fun _ => ⟨s, by rw [ho], rfl⟩, ?_, ?_, ?_⟩ <;> intro h <;> exact absurd h (by decide)
      · refine ⟨_, rfl, fun _ h => absurd h (by decide), ?_, fun _ => ⟨t, by rw [ho], rfl⟩, ?_, ?_⟩ <;> intro h <;> exact absurd h (by decide)
      · refine ⟨_, rfl, fun _ _ => by rw [ho], ?_, ?_, ?_, ?_⟩ <;> intro h <;> exact absurd h (by decide)
  | dominance =>
    obtain ⟨ids, s, t, fs, hl, hs, ht, hf, ho⟩ := hk
    refine ⟨[("source", saltRefs "nodes" [s]), ("target", saltRefs "nodes" [t]), ("layers", saltRefs "layers" ids)], ?_, ⟨ids, s, t, fs, ?_, ?_, ?_, hf, ho⟩, rfl, ?_⟩
    · rw [ho]
      rfl
    · refine refs_written (kind := "layers") (by decide) (by decide) ?_
      rw [SXml.attrs, find_ref (by simp)]
      rfl
    · refine ref_written (kind := "nodes") (by decide) ?_
      rw [SXml.attrs, find_ref (by simp)]
      rfl
    · refine ref_written (kind := "nodes") (by decide) ?_
      rw [SXml.attrs, find_ref (by simp)]
      rfl
    · intro a kind hm
      simp only [SaltKind.refs, List.mem_cons, Prod.mk.injEq, List.not_mem_nil, or_false] at hm
      rcases hm with ⟨rfl, rfl⟩ | ⟨rfl, rfl⟩ | ⟨rfl, rfl⟩
      · refine ⟨_, rfl, fun _ h => absurd h (by decide), fun _ => ⟨s, by rw [ho], rfl⟩, ?_, ?_, ?_⟩ <;> intro h <;> exact absurd h (by decide)
      · refine ⟨_, rfl, fun _ h => absurd h (by decide), ?_, fun _ => ⟨t, by rw [ho], rfl⟩, ?_, ?_⟩ <;> intro h <;> exact absurd h (by decide)
      · refine ⟨_, rfl, fun _ _ => by rw [ho], ?_, ?_, ?_, ?_⟩ <;> intro h <;> exact absurd h (by decide)

/-- **C67 (writing and reading)**.  Every object that was read from an element with only labels inside can be written, and reading what was written gives the same object again. -/
theorem c67_write_read (e : SXml) (h : ∀ c ∈ e.children, c.tag = "labels") (o : SaltObj) (ho : saltInstance e = .ok o) :
    ∃ e', o.toEtree = .ok e' ∧ saltInstance e' = .ok o := by
  obtain ⟨x, k, hx, hk, hr⟩ := instance_iff.1 ho
  obtain ⟨hc, hs⟩ := read_says h hr
  have hxo : x = o.xsi := Option.some.inj (hx.symm.trans hc.type)
  subst hxo
  obtain ⟨as, hw, hs', _, _⟩ := written h hr
  refine ⟨_, hw, ?_⟩
  have hx' : find (SXml.mk k.tag ((xsiType, o.xsi) :: as) (o.labels.map SaltLabel.toEtree)).attrs xsiType = some o.xsi := by
    rw [SXml.attrs, find_cons, if_pos rfl]
  obtain ⟨h1, h2⟩ := written_says (normal_labels hc.labels) rfl hx' hc.name hc.id
  refine instance_iff.2 ⟨o.xsi, k, hx', hk, ?_⟩
  rw [says_read h1 h2 hs', inOrder_of_read h hr]

example : ((saltInstance sampleSaltNode).toOption.bind (fun o => o.toEtree.toOption.bind (fun e => (saltInstance e).toOption.map (fun o' => decide (o' = o))))) = some true := by decide +kernel
example : ((saltInstance sampleSaltTextual).toOption.bind (fun o => o.toEtree.toOption.bind (fun e => (saltInstance e).toOption.map (fun o' => decide (o' = o))))) = some true := by decide +kernel

theorem kinds_unique : ∀ p ∈ saltKinds, ∀ q ∈ saltKinds, p.1 = q.1 → p.2 = q.2 := by decide

theorem refList_eq (kind : String) (ids : List Int) : refList kind ids = saltRefs kind ids := by
  unfold refList saltRefs pyJoin
  rw [List.map_map, show " ".toList = [' '] from rfl]
  congr 2
  refine List.map_congr_left ?_
  intro i _
  simp [String.toList_append]

theorem same_label {c : SXml} {l : SaltLabel} (h : c.SaysLabel l) (hp : c.PlainLabel) : SXml.Same c l.toEtree := by
  obtain ⟨t, a, cs⟩ := c
  obtain ⟨rfl, rfl, h1, h2, h3⟩ := hp
  refine .mk (t := "labels") ?_ .nil
  intro k
  have hf := label_find l k
  unfold SaltLabel.toEtree at hf
  refine Eq.trans ?_ hf.symm
  obtain ⟨x, hx, hx1, _⟩ := h.hex
  have hxe : x ≠ "" := fun e => h3 (by rw [hx, e])
  split
  · rename_i e; subst e; exact h.type
  split
  · rename_i e; subst e
    cases hn : find a "namespace" with
    | none =>
      cases hl : l.ns with
      | none => rfl
      | some s => exact absurd (((h.ns s).1 hl).1) (by rw [SXml.attrs, hn]; simp)
    | some s =>
      refine ((h.ns s).2 ⟨hn, ?_⟩).symm
      rintro rfl
      exact h2 hn
  split
  · rename_i e; subst e; exact h.name
  split
  · rename_i e; subst e
    rw [hx1 hxe]
    exact hx
  split
  · rename_i e; subst e; exact h.value
  · rename_i n1 n2 n3 n4 n5
    cases hk : find a k with
    | none => rfl
    | some v =>
      have := h1 k v hk
      simp only [List.mem_cons, List.not_mem_nil, or_false] at this
      rcases this with e | e | e | e | e <;> subst e <;> exact absurd rfl (by assumption)

theorem RefersTo_unique {e : SXml} {ids ids' : List Int} (h : e.RefersTo "layers" ids) (h' : e.RefersTo "layers" ids') : ids = ids' :=
  Except.ok.inj ((layerIds_iff.2 h).symm.trans (layerIds_iff.2 h'))

theorem RefersToOne_unique {e : SXml} {k : String} {i j : Int} (h : e.RefersToOne k i) (h' : e.RefersToOne k j) : i = j :=
  Except.ok.inj ((nodeId_iff.2 h).symm.trans (nodeId_iff.2 h'))

theorem kind_layers {e : SXml} {o : SaltObj} {k : SaltKind} (h : e.SaysKind o k) (hk : k ≠ .layer) : ∃ ids, e.RefersTo "layers" ids ∧ o.layers = some ids := by
  cases k with
  | node => obtain ⟨ids, _, hl, _, ho⟩ := h; exact ⟨ids, hl, by rw [ho]⟩
  | text => obtain ⟨ids, _, _, hl, _, _, ho⟩ := h; exact ⟨ids, hl, by rw [ho]⟩
  | edge => obtain ⟨ids, _, _, hl, _, _, ho⟩ := h; exact ⟨ids, hl, by rw [ho]⟩
  | textual => obtain ⟨ids, _, _, _, _, _, _, hl, _, _, _, _, _, _, ho⟩ := h; exact ⟨ids, hl, by rw [ho]⟩
  | dominance => obtain ⟨ids, _, _, _, hl, _, _, _, ho⟩ := h; exact ⟨ids, hl, by rw [ho]⟩
  | layer => exact absurd rfl hk

theorem kind_ends {e : SXml} {o : SaltObj} {k : SaltKind} (h : e.SaysKind o k) (hk : ("source", "nodes") ∈ k.refs) :
    ∃ s t, e.RefersToOne "source" s ∧ e.RefersToOne "target" t ∧ o.source = some s ∧ o.target = some t := by
  cases k with
  | node => exact absurd hk (by decide)
  | text => exact absurd hk (by decide)
  | edge => obtain ⟨ids, s, t, hl, hs, ht, ho⟩ := h; exact ⟨s, t, hs, ht, by rw [ho], by rw [ho]⟩
  | textual => obtain ⟨ids, s, t, _, _, _, _, hl, hs, ht, _, _, _, _, ho⟩ := h; exact ⟨s, t, hs, ht, by rw [ho], by rw [ho]⟩
  | dominance => obtain ⟨ids, s, t, _, hl, hs, ht, _, ho⟩ := h; exact ⟨s, t, hs, ht, by rw [ho], by rw [ho]⟩
  | layer => exact absurd hk (by decide)

theorem ofNat_toNat {ids : List Int} (h : ∀ i ∈ ids, 0 ≤ i) : (ids.map Int.toNat).map Int.ofNat = ids := by
  rw [List.map_map]
  refine (List.map_congr_left ?_).trans (List.map_id ids)
  intro i hi
  exact Int.toNat_of_nonneg (h i hi)

/-- **C67 (reading and writing), partial**.  If an element is as Salt writes it and names its layers, writing the object that was read from it gives the same element: same tag, attributes and labels,
and nothing else (missing: elements without the attribute `layers`, see `c67_fails_for_elements_without_layers`). -/
theorem c67_read_write_partial (e : SXml) (x : String) (k : SaltKind) (hx : find e.attrs xsiType = some x) (hk : (x, k) ∈ saltKinds) (hu : e.Usual k) (o : SaltObj) (ho : saltInstance e = .ok o) :
    ∃ e', o.toEtree = .ok e' ∧ SXml.Same e e' := by
  have h : e.OnlyLabels := fun c hc => (hu.labels c hc).1
  obtain ⟨x', k', hx', hk', hr⟩ := instance_iff.1 ho
  obtain rfl : x' = x := Option.some.inj (hx'.symm.trans hx)
  obtain rfl : k' = k := kinds_unique _ hk' _ hk rfl
  obtain ⟨hc, hs⟩ := read_says h hr
  obtain rfl : x' = o.xsi := Option.some.inj (hx.symm.trans hc.type)
  obtain ⟨as, hw, _, hkeys, hrefs⟩ := written h hr
  refine ⟨_, hw, ?_⟩
  have hkids : List.Forall₂ SXml.Same e.children (o.labels.map SaltLabel.toEtree) := by
    rw [List.forall₂_map_right_iff]
    exact forall₂_mem_imp hc.labels (fun c hcm l _ hcl => same_label hcl (hu.labels c hcm))
  have hattr : ∀ a, find e.attrs a = find ((xsiType, o.xsi) :: as) a := by
    intro a
    rw [find_cons]
    split
    · rename_i he
      subst he
      exact hx
    · rename_i hne
      by_cases hm : a ∈ k'.refs.map Prod.fst
      · obtain ⟨⟨a', kind⟩, hmem, rfl⟩ := List.mem_map.1 hm
        dsimp only at hne hm ⊢
        obtain ⟨ids, h1, h2, h3, h4, h5, h6⟩ := hrefs a' kind hmem
        obtain ⟨ids', g1, g2, g3⟩ := hu.refs a' kind hmem
        rw [refList_eq] at g1
        rw [g1, h1]
        suffices ids' = ids by rw [this]
        have hedge : ("source", "nodes") ∈ k'.refs → (a' = "source" ∨ a' = "target") → kind = "nodes" → ids' = ids := by
          intro hsrc ha hkind
          obtain ⟨s, t, q1, q2, q3, q4⟩ := kind_ends hs hsrc
          obtain ⟨i, hi⟩ := List.length_eq_one_iff.1 (g3 (by simpa using ha))
          subst hi
          subst hkind
          have hone := ref_written (kind := "nodes") (by decide) g1
          rcases ha with rfl | rfl
          · obtain ⟨s', w1, w2⟩ := h3 rfl
            obtain rfl : s = s' := Option.some.inj (q3.symm.trans w1)
            rw [RefersToOne_unique hone q1, w2]
          · obtain ⟨s', w1, w2⟩ := h4 rfl
            obtain rfl : t = s' := Option.some.inj (q4.symm.trans w1)
            rw [RefersToOne_unique hone q2, w2]
        have hlay : k' ≠ .layer → a' = "layers" → kind = "layers" → ids' = ids := by
          intro hkl ha hkind
          subst ha
          subst hkind
          obtain ⟨l, q1, q2⟩ := kind_layers hs hkl
          have := refs_written (kind := "layers") (by decide) (by decide) g1
          rw [RefersTo_unique this q1]
          exact Option.some.inj (q2.symm.trans (h2 hkl rfl))
        cases k' with
        | node =>
          simp only [SaltKind.refs, List.mem_singleton, Prod.mk.injEq] at hmem
          exact hlay (by decide) hmem.1 hmem.2
        | text =>
          simp only [SaltKind.refs, List.mem_singleton, Prod.mk.injEq] at hmem
          exact hlay (by decide) hmem.1 hmem.2
        | edge =>
          simp only [SaltKind.refs, List.mem_cons, Prod.mk.injEq, List.not_mem_nil, or_false] at hmem
          rcases hmem with e | e | e
          · exact hedge (by decide) (.inl e.1) e.2
          · exact hedge (by decide) (.inr e.1) e.2
          · exact hlay (by decide) e.1 e.2
        | textual =>
          simp only [SaltKind.refs, List.mem_cons, Prod.mk.injEq, List.not_mem_nil, or_false] at hmem
          rcases hmem with e | e | e
          · exact hedge (by decide) (.inl e.1) e.2
          · exact hedge (by decide) (.inr e.1) e.2
          · exact hlay (by decide) e.1 e.2
        | dominance =>
          simp only [SaltKind.refs, List.mem_cons, Prod.mk.injEq, List.not_mem_nil, or_false] at hmem
          rcases hmem with e | e | e
          · exact hedge (by decide) (.inl e.1) e.2
          · exact hedge (by decide) (.inr e.1) e.2
          · exact hlay (by decide) e.1 e.2
        | layer =>
          obtain ⟨ns, es, hn, he, hob⟩ := hs
          simp only [SaltKind.refs, List.mem_cons, Prod.mk.injEq, List.not_mem_nil, or_false] at hmem
          have hnn := ofNat_toNat (g2 rfl)
          rw [← hnn] at g1
          rcases hmem with ⟨rfl, rfl⟩ | ⟨rfl, rfl⟩
          · obtain ⟨ns', w1, w2⟩ := h5 rfl
            have := numbers_eq (numbers_written (kind := "nodes") (by decide) g1)
            rw [numbers_eq hn] at this
            obtain rfl : ns' = ns := by rw [hob] at w1; exact (Option.some.inj w1).symm
            rw [w2, this, hnn]
          · obtain ⟨es', w1, w2⟩ := h6 rfl
            have := numbers_eq (numbers_written (kind := "edges") (by decide) g1)
            rw [numbers_eq he] at this
            obtain rfl : es' = es := by rw [hob] at w1; exact (Option.some.inj w1).symm
            rw [w2, this, hnn]
      · have h1 : find as a = none := (find_eq_none_iff _ _).2 (by rw [hkeys]; exact hm)
        rw [h1]
        cases hf : find e.attrs a with
        | none => rfl
        | some v =>
          rcases hu.only a v hf with e | e
          · exact absurd e.symm hne
          · exact absurd e hm
  obtain ⟨t, a, cs⟩ := e
  have ht : t = k'.tag := hu.tag
  subst ht
  exact .mk hattr hkids

theorem plain_sample (t : String) (ns : Option String) (n hex v : String) (h1 : ns ≠ some "") (h2 : hex ≠ "") : (sampleLabel t ns n hex v).PlainLabel := by
  have hf : ∀ k, find (sampleLabel t ns n hex v).attrs k =
      if xsiType = k then some t else if "namespace" = k then ns else if "name" = k then some n else if "value" = k then some hex else if "valueString" = k then some v else none := by
    intro k
    exact label_find ⟨n, v, t, ns, hex⟩ k
  refine ⟨rfl, rfl, ?_, ?_, ?_⟩
  · intro k v hk
    rw [hf] at hk
    simp only [List.mem_cons, List.not_mem_nil, or_false]
    split at hk
    · rename_i e; exact .inl e.symm
    split at hk
    · rename_i e; exact .inr (.inl e.symm)
    split at hk
    · rename_i e; exact .inr (.inr (.inl e.symm))
    split at hk
    · rename_i e; exact .inr (.inr (.inr (.inl e.symm)))
    split at hk
    · rename_i e; exact .inr (.inr (.inr (.inr e.symm)))
    · cases hk
  · rw [hf, if_neg (xsi_ne (by simp)), if_pos rfl]
    exact h1
  · rw [hf, if_neg (xsi_ne (by simp))]
    simpa using h2

/-- the sample edge is as Salt writes it -/
example : sampleSaltEdge.Usual .dominance := by
  refine ⟨rfl, ?_, ?_, ?_⟩
  · intro c hc
    simp only [sampleSaltEdge, SXml.children, List.mem_cons, List.not_mem_nil, or_false] at hc
    rcases hc with rfl | rfl <;> exact plain_sample _ _ _ _ _ (by simp) (by decide)
  · intro a v hf
    have := (mem_keys_iff _ _).2 ⟨v, hf⟩
    simp only [sampleSaltEdge, SXml.attrs, keys, List.map_cons, List.map_nil, List.mem_cons, List.not_mem_nil, or_false] at this
    simp only [SaltKind.refs, List.map_cons, List.map_nil, List.mem_cons, List.not_mem_nil, or_false]
    exact this
  · intro a kind hm
    simp only [SaltKind.refs, List.mem_cons, Prod.mk.injEq, List.not_mem_nil, or_false] at hm
    rcases hm with ⟨rfl, rfl⟩ | ⟨rfl, rfl⟩ | ⟨rfl, rfl⟩
    · exact ⟨[251], by decide +kernel, by decide, by decide⟩
    · exact ⟨[134], by decide +kernel, by decide, by decide⟩
    · exact ⟨[2], by decide +kernel, by decide, by decide⟩

/-- **C67 is violated**: an element without the attribute `layers` (e.g. every textual relation) does not survive reading and writing: it is written with an empty attribute `layers`. -/
theorem c67_fails_for_elements_without_layers (e : SXml) (h : ∀ c ∈ e.children, c.tag = "labels") (hn : find e.attrs "layers" = none) (o : SaltObj) (ho : saltInstance e = .ok o) (ht : o.cls ≠ .layer) :
    ∃ e', o.toEtree = .ok e' ∧ find e'.attrs "layers" = some "" ∧ ¬ SXml.Same e e' := by
  obtain ⟨x, k, hx, hk, hr⟩ := instance_iff.1 ho
  obtain ⟨hc, hs⟩ := read_says h hr
  obtain ⟨as, hw, _, _, hrefs⟩ := written h hr
  have hkl : k ≠ .layer := by
    rintro rfl
    obtain ⟨_, _, _, _, hob⟩ := hs
    exact ht (by rw [hob])
  have hm : ("layers", "layers") ∈ k.refs := by
    cases k with
    | layer => exact absurd rfl hkl
    | node => decide
    | text => decide
    | edge => decide
    | textual => decide
    | dominance => decide
  obtain ⟨ids, h1, h2, _⟩ := hrefs _ _ hm
  have h2 := h2 hkl rfl
  obtain ⟨ids', q1, q2⟩ := kind_layers hs hkl
  have hids : ids = [] := by
    have e1 : ids' = ids := Option.some.inj (q2.symm.trans h2)
    rcases q1 with ⟨_, q⟩ | ⟨s, _, q, _⟩
    · rw [← e1, q]
    · rw [hn] at q
      cases q
  subst hids
  have hf : find (SXml.mk k.tag ((xsiType, o.xsi) :: as) (o.labels.map SaltLabel.toEtree)).attrs "layers" = some "" := by
    rw [SXml.attrs, find_ref (by simp), h1]
    rfl
  refine ⟨_, hw, hf, ?_⟩
  intro hsame
  cases hsame with
  | mk ha _ =>
    have := ha "layers"
    rw [SXml.attrs] at hf hn
    rw [hf, hn] at this
    cases this

example : find sampleSaltTextual.attrs "layers" = none ∧ (saltInstance sampleSaltTextual).isOk = true := ⟨by decide +kernel, by decide +kernel⟩

/-- **C67 is violated**: the hexadecimal value of a label, which the code can compute and the docstrings of the classes leave out, must be present: an element with a label without it is refused. -/
theorem c67_fails_for_labels_without_value (e c : SXml) (hc : c ∈ e.children) (ht : c.tag = "labels") (hv : find c.attrs "value" = none) : ∀ o, saltInstance e ≠ .ok o := by
  intro o ho
  obtain ⟨x, k, hx, hk, hr⟩ := instance_iff.1 ho
  have : ∃ o, saltElement e = .ok o := by
    cases k <;> simp only [readKind, saltNode, saltPrimaryText, saltEdge, saltTextual, saltDominance, saltLayer, bind_ok_iff] at hr
    · obtain ⟨o', h, _⟩ := hr; exact ⟨o', h⟩
    · obtain ⟨_, ⟨o', h, _⟩, _⟩ := hr; exact ⟨o', h⟩
    · obtain ⟨o', h, _⟩ := hr; exact ⟨o', h⟩
    · obtain ⟨_, ⟨o', h, _⟩, _⟩ := hr; exact ⟨o', h⟩
    · obtain ⟨_, ⟨o', h, _⟩, _⟩ := hr; exact ⟨o', h⟩
    · obtain ⟨o', h, _⟩ := hr; exact ⟨o', h⟩
  obtain ⟨o', ho'⟩ := this
  unfold saltElement at ho'
  simp only [bind_ok_iff] at ho'
  obtain ⟨ls, hls, _⟩ := ho'
  rw [mapE_ok] at hls
  obtain ⟨l, _, hl⟩ := forall₂_mem_left hls (show c ∈ saltSub e "labels" by
    unfold saltSub
    rw [List.mem_filter]
    exact ⟨hc, by simpa using ht⟩)
  obtain ⟨h, hh, _⟩ := (label_says.1 hl).hex
  rw [hv] at hh
  cases hh

/-- the node of the docstring of `SpanNode` (salt/nodes.py:143-160), shortened -/
example : ¬ (saltInstance (.mk "nodes" [(xsiType, "sDocumentStructure:SSpan"), ("layers", "//@layers.1")] [.mk "labels" [(xsiType, "saltCore:SFeature"), ("namespace", "salt"), ("name", "SNAME"), ("valueString", "sSpan1")] []])).isOk = true := by
  decide +kernel

/-- **C67 (labels from scratch)**.  A label made by the constructor with any arguments survives writing and reading. -/
theorem c67_label_from_scratch (name value xsi : String) (ns hex : Option String) :
    SaltLabel.fromEtree (SaltLabel.new name value xsi ns hex).toEtree = .ok (SaltLabel.new name value xsi ns hex) :=
  label_says.2 (label_written _ (normal_new name value xsi ns hex))

theorem hexDigit_inj : ∀ a < 16, ∀ b < 16, hexDigit a = hexDigit b → a = b := by decide

theorem hexChar_two {c : Char} (h : c.toNat < 256) : hexChar c = [hexDigit (c.toNat / 16), hexDigit (c.toNat % 16)] := by
  unfold hexChar
  split
  · rename_i h1
    rw [hexNat, if_pos h1, Nat.div_eq_of_lt h1, Nat.mod_eq_of_lt h1]
    rfl
  · rename_i h1
    rw [hexNat, if_neg h1, hexNat, if_pos (by omega)]
    rfl

/-- **C67 (hexadecimal values)**.  The computed hexadecimal value has two digits for each character, and different texts of Latin-1 characters have different values. -/
theorem c67_hex (s t : String) (hs : ∀ c ∈ s.toList, c.toNat < 256) (ht : ∀ c ∈ t.toList, c.toNat < 256) :
    (string2xmihex s).toList.length = 2 * s.toList.length ∧ (string2xmihex s = string2xmihex t → s = t) := by
  constructor
  · unfold string2xmihex
    rw [String.toList_ofList]
    generalize s.toList = l at hs
    induction l with
    | nil => rfl
    | cons c l ih =>
      rw [List.flatMap_cons, List.length_append, hexChar_two (hs c (.head _)), ih (fun c hc => hs c (.tail _ hc)), List.length_cons]
      simp
      omega
  · intro h
    have h := congrArg String.toList h
    unfold string2xmihex at h
    rw [String.toList_ofList, String.toList_ofList] at h
    rw [← String.toList_inj]
    generalize s.toList = l at hs h
    generalize t.toList = m at ht h
    clear * - hs ht h
    induction l generalizing m with
    | nil =>
      cases m with
      | nil => rfl
      | cons d m =>
        rw [List.flatMap_cons, hexChar_two (ht d (.head _))] at h
        simp at h
    | cons c l ih =>
      cases m with
      | nil =>
        rw [List.flatMap_cons, hexChar_two (hs c (.head _))] at h
        simp at h
      | cons d m =>
        rw [List.flatMap_cons, List.flatMap_cons, hexChar_two (hs c (.head _)), hexChar_two (ht d (.head _))] at h
        simp only [List.cons_append, List.nil_append, List.cons.injEq] at h
        obtain ⟨h1, h2, h3⟩ := h
        have hc := hs c (.head _)
        have hd := ht d (.head _)
        have e1 := hexDigit_inj _ (by omega) _ (by omega) h1
        have e2 := hexDigit_inj _ (by omega) _ (by omega) h2
        have : c.toNat = d.toNat := by omega
        have hcd : c = d := by rw [← Char.ofNat_toNat c, ← Char.ofNat_toNat d, this]
        rw [hcd, ih (fun c hc => hs c (.tail _ hc)) m (fun c hc => ht c (.tail _ hc)) h3]

example : string2xmihex "sSpan19" = "735370616E3139" := by decide +kernel

/-- **C67 is violated**: other texts can have the same hexadecimal value, and it is not the encoding of Salt, which starts with `ACED0005` and the length of the text. -/
theorem c67_fails_hex : string2xmihex (String.ofList [Char.ofNat 0x4142]) = string2xmihex "AB" ∧ string2xmihex "sSpan19" ≠ "ACED0005740007735370616E3139" :=
  ⟨by decide +kernel, by decide +kernel⟩

end Dg
