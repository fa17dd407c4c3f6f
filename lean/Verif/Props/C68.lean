import Verif.Lemmas.SaltGraph
import Verif.Lemmas.RstLatexTree
import Verif.Props.C67

namespace Dg
open Dict
open DG (mapE mapE_ok bind_ok_iff)

theorem document_iff {root : SXml} {d : SaltDoc} : saltDocument root = .ok d ↔
    saltDocId root = .ok d.docId ∧ mapE saltInstance (saltElements root "nodes") = .ok d.nodes ∧ mapE saltInstance (saltElements root "edges") = .ok d.edges ∧
      mapE saltInstance (saltElements root "layers") = .ok d.layers := by
  unfold saltDocument
  simp only [bind_ok_iff]
  constructor
  · rintro ⟨_, h1, _, h2, _, h3, _, h4, h⟩
    cases h
    exact ⟨h1, h2, h3, h4⟩
  · rintro ⟨h1, h2, h3, h4⟩
    exact ⟨_, h1, _, h2, _, h3, _, h4, rfl⟩

theorem kids_labels {root : SXml} (h : root.Flat) {tag : String} (ht : tag ∈ ["nodes", "edges", "layers"]) {c : SXml} (hc : c ∈ root.kids tag) : ∀ d ∈ c.children, d.tag = "labels" := by
  obtain ⟨hc, hd⟩ := List.mem_filter.1 hc
  rcases h c hc with ⟨h1, h2⟩ | ⟨_, h2⟩
  · rw [h2]
    simp
  · exact fun d hd => (h2 d hd).1

theorem elements_says {root : SXml} (h : root.Flat) {tag : String} (ht : tag ∈ ["nodes", "edges", "layers"]) {os : List SaltObj} (ho : mapE saltInstance (saltElements root tag) = .ok os) :
    List.Forall₂ SXml.Says (root.kids tag) os := by
  rw [elements_flat h ht, mapE_ok] at ho
  exact forall₂_mem_imp ho (fun x hx y _ hxy => (c67_read x (kids_labels h ht hx)).1 y hxy)

theorem elements_exist {root : SXml} (h : root.Flat) {tag : String} (ht : tag ∈ ["nodes", "edges", "layers"]) {os : List SaltObj} (ho : List.Forall₂ SXml.Says (root.kids tag) os) :
    ∃ os', mapE saltInstance (saltElements root tag) = .ok os' := by
  obtain ⟨os', h'⟩ := forall₂_of_exists (R := fun x y => saltInstance x = .ok y) (xs := root.kids tag) (by
    intro x hx
    obtain ⟨y, _, hy⟩ := forall₂_mem_left ho hx
    exact (c67_read x (kids_labels h ht hx)).2.2 ⟨y, hy⟩)
  exact ⟨os', by rw [elements_flat h ht]; exact mapE_ok.2 h'⟩

/-- **C68 (documents)**.  A file as Salt writes it (a root with labels, nodes, edges and layers, which contain labels) can be read if and only if its root has an ID and each of its elements stands for
an object; the document has the ID of the file and one object for each element in the order of the file, so that object number `i` is what a reference to number `i` means. -/
theorem c68_document (root : SXml) (h : root.Flat) :
    (∀ d, saltDocument root = .ok d → root.SaysDoc d) ∧ ((∃ d, saltDocument root = .ok d) ↔ ∃ d, root.SaysDoc d) := by
  have h1 : ∀ d, saltDocument root = .ok d → root.SaysDoc d := by
    intro d hd
    obtain ⟨a, b, c, e⟩ := document_iff.1 hd
    exact ⟨docId_iff.1 a, elements_says h (by simp) b, elements_says h (by simp) c, elements_says h (by simp) e⟩
  refine ⟨h1, fun ⟨d, hd⟩ => ⟨d, h1 d hd⟩, ?_⟩
  rintro ⟨d, hd⟩
  obtain ⟨ns, hn⟩ := elements_exist h (by simp) hd.nodes
  obtain ⟨es, he⟩ := elements_exist h (by simp) hd.edges
  obtain ⟨ls, hl⟩ := elements_exist h (by simp) hd.layers
  exact ⟨⟨d.docId, ns, es, ls⟩, document_iff.2 ⟨docId_iff.2 hd.id, hn, he, hl⟩⟩

/-- a node of a sample document -/
def sampleSaltPart (tag x : String) (as : Dict String String) (ls : List SXml) : SXml := .mk tag ((xsiType, x) :: as) ls

/-- a file with a text, two tokens, a structure that dominates them, and a layer -/
def sampleSaltRoot : SXml := .mk "{sDocumentStructure}SDocumentGraph" []
  [sampleLabel "saltCore:SElementId" (some "graph") "id" "AC" "salt:/maz/maz_graph",
   sampleSaltPart "nodes" "sDocumentStructure:STextualDS" [] [sampleLabel "saltCore:SFeature" (some "salt") "SNAME" "AC" "text", sampleLabel "saltCore:SFeature" (some "saltCommon") "SDATA" "AC" "Er ging ."],
   sampleSaltPart "nodes" "sDocumentStructure:SToken" [("layers", "//@layers.0")] [sampleLabel "saltCore:SFeature" (some "salt") "SNAME" "AC" "tok_1", sampleLabel "saltCore:SAnnotation" none "tiger.pos" "AC" "PPER"],
   sampleSaltPart "edges" "sDocumentStructure:STextualRelation" [("source", "//@nodes.1"), ("target", "//@nodes.0")]
     [sampleLabel "saltCore:SFeature" (some "salt") "SNAME" "AC" "rel_1", sampleLabel "saltCore:SFeature" (some "saltCommon") "SSTART" "AC" "0", sampleLabel "saltCore:SFeature" (some "saltCommon") "SEND" "AC" "2"],
   sampleSaltPart "nodes" "sDocumentStructure:SToken" [("layers", "//@layers.0")] [sampleLabel "saltCore:SFeature" (some "salt") "SNAME" "AC" "tok_2", sampleLabel "saltCore:SAnnotation" none "tiger.pos" "AC" "$."],
   sampleSaltPart "edges" "sDocumentStructure:STextualRelation" [("source", "//@nodes.2"), ("target", "//@nodes.0")]
     [sampleLabel "saltCore:SFeature" (some "salt") "SNAME" "AC" "rel_2", sampleLabel "saltCore:SFeature" (some "saltCommon") "SSTART" "AC" "8", sampleLabel "saltCore:SFeature" (some "saltCommon") "SEND" "AC" "9"],
   sampleSaltPart "nodes" "sDocumentStructure:SStructure" [("layers", "//@layers.0")] [sampleLabel "saltCore:SFeature" (some "salt") "SNAME" "AC" "const_1"],
   sampleSaltPart "edges" "sDocumentStructure:SDominanceRelation" [("source", "//@nodes.3"), ("target", "//@nodes.1")]
     [sampleLabel "saltCore:SFeature" (some "salt") "SNAME" "AC" "dom_1", sampleLabel "saltCore:SAnnotation" none "tiger.func" "AC" "SB"],
   sampleSaltPart "edges" "sDocumentStructure:SDominanceRelation" [("source", "//@nodes.3"), ("target", "//@nodes.2")] [sampleLabel "saltCore:SFeature" (some "salt") "SNAME" "AC" "dom_2"],
   sampleSaltPart "layers" "saltCore:SLayer" [("nodes", "//@nodes.1 //@nodes.2 //@nodes.3")] [sampleLabel "saltCore:SFeature" (some "salt") "SNAME" "AC" "tiger"]]

theorem sampleLabel_flat (t : String) (ns : Option String) (n hex v : String) : (sampleLabel t ns n hex v).tag = "labels" ∧ (sampleLabel t ns n hex v).children = [] := ⟨rfl, rfl⟩

example : sampleSaltRoot.Flat := by
  intro c hc
  simp only [sampleSaltRoot, SXml.children, List.mem_cons, List.not_mem_nil, or_false] at hc
  rcases hc with rfl | rfl | rfl | rfl | rfl | rfl | rfl | rfl | rfl | rfl
  · exact .inl ⟨rfl, rfl⟩
  all_goals
    refine .inr ⟨by simp [sampleSaltPart, SXml.tag], ?_⟩
    intro d hd
    simp only [sampleSaltPart, SXml.children, List.mem_cons, List.not_mem_nil, or_false] at hd
    rcases hd with rfl | rfl | rfl <;> exact ⟨rfl, rfl⟩
example : (saltDocument sampleSaltRoot).toOption.map (fun d => (d.docId, d.nodes.map SaltObj.name, d.edges.map SaltObj.name, d.layers.map SaltObj.name)) =
    some ("salt:/maz/maz_graph", ["text", "tok_1", "tok_2", "const_1"], ["rel_1", "rel_2", "dom_1", "dom_2"], ["tiger"]) := by decide +kernel
example : (saltDocument sampleSaltRoot).toOption.map (fun d => (d.edges.map SaltObj.source, d.edges.map SaltObj.onset)) =
    some ([some 1, some 2, some 3, some 3], [some 0, some 8, none, none]) := by decide +kernel

/-- the relations of a document: every `edges` element has a type of edges -/
def SaltDoc.OnlyRelations (d : SaltDoc) : Prop := ∀ e ∈ d.edges, e.cls.isSub .edge = true

theorem ends_of_relation {root : SXml} {d : SaltDoc} (hd : saltDocument root = .ok d) (hr : d.OnlyRelations) : ∀ o ∈ d.edges, ∃ s t, o.source = some s ∧ o.target = some t := by
  intro o ho
  have hm := (made_document hd).edges o ho
  refine hm.ends ?_
  have hc := hm.cls
  have hr := hr o ho
  revert hc hr
  cases o.cls <;> decide

theorem mem_entry {α : Type} {k k' : String} {f : α → SaltVal} {o : Option α} {v : SaltVal} : (k', v) ∈ saltEntry k f o ↔ k' = k ∧ ∃ x, o = some x ∧ v = f x := by
  cases o with
  | none => simp [saltEntry]
  | some x => simp [saltEntry]

/-- **C68 (attributes)**.  The attributes of nodes and edges of the graph are exactly those of the objects. -/
theorem c68_attributes (o : SaltObj) (k : String) (v : SaltVal) : find o.dict k = some v ↔ o.HasAttr k v := by
  have hmem : find o.dict k = some v ↔ (k, v) ∈ o.dict := ⟨find_some_mem, mem_find (dict_nodup o)⟩
  rw [hmem]
  unfold SaltObj.dict
  simp only [List.mem_append, mem_entry, List.mem_cons, List.not_mem_nil, or_false, Prod.mk.injEq]
  constructor
  · rintro ((((((((((⟨rfl, rfl⟩ | ⟨rfl, rfl⟩ | ⟨rfl, rfl⟩ | ⟨rfl, rfl⟩) | ⟨rfl, x, hx, rfl⟩) | ⟨rfl, x, hx, rfl⟩) | ⟨rfl, x, hx, rfl⟩) | ⟨rfl, x, hx, rfl⟩) | ⟨rfl, x, hx, rfl⟩) | ⟨rfl, x, hx, rfl⟩) | ⟨rfl, x, hx, rfl⟩) | ⟨rfl, x, hx, rfl⟩) | ⟨rfl, x, hx, rfl⟩)
    · exact .name
    · cases h : o.elementId with
      | none => exact .noId h
      | some i => exact .id h
    · exact .type
    · exact .labels
    · exact .layers hx
    · exact .features hx
    · exact .source hx
    · exact .target hx
    · exact .onset hx
    · exact .offset hx
    · exact .text hx
    · obtain ⟨l, hl, rfl⟩ := Option.map_eq_some_iff.1 hx
      exact .nodes hl
    · obtain ⟨l, hl, rfl⟩ := Option.map_eq_some_iff.1 hx
      exact .edges hl
  · intro h
    cases h <;> simp_all

/-- **C68 (graphs, what is built)**.  If the document of a file can be read and its `edges` are relations, the graph of the file can be built: it has the document's ID; its nodes are the numbers of the
nodes of the document, with their attributes, and (without attributes) ends of edges that the document lacks; nodes are connected if and only if a relation of the document connects them, and the
attributes of the edge are, for each name, those of the last such relation with that attribute. -/
theorem c68_graph_built (root : SXml) (d : SaltDoc) (hd : saltDocument root = .ok d) (hr : d.OnlyRelations) : ∃ g, saltXmiGraph root = .ok (d.docId, g) ∧ g.Consists d.nodes d.edges := by
  obtain ⟨h1, h2, h3, _⟩ := document_iff.1 hd
  exact xmiGraph_ok h1 h2 h3 (ends_of_relation hd hr)

theorem between_one {es : List SaltObj} {e : SaltObj} {s t : Int} (hs : e.source = some s) (ht : e.target = some t) (he : e ∈ es) (hp : es.Pairwise (fun x y => ¬ (x.source = y.source ∧ x.target = y.target))) :
    edgesBetween es s t = [e] := by
  unfold edgesBetween
  induction es with
  | nil => cases he
  | cons x xs ih =>
    obtain ⟨h1, h2⟩ := List.pairwise_cons.1 hp
    rw [List.filter_cons]
    rcases List.mem_cons.1 he with rfl | he'
    · rw [if_pos (by simp [hs, ht])]
      congr 1
      rw [List.filter_eq_nil_iff]
      intro y hy hx
      have hx := of_decide_eq_true hx
      exact h1 y hy ⟨by rw [hs, hx.1], by rw [ht, hx.2]⟩
    · rw [if_neg, ih he' h2]
      intro hx
      have hx := of_decide_eq_true hx
      exact h1 e he' ⟨by rw [hs, hx.1], by rw [ht, hx.2]⟩

/-- **C68 (graphs)**, partial: if no two relations of the document have the same ends, and they connect nodes of the document, then the graph is the document: its nodes are the numbers of the nodes of
the document with their attributes, and its edges are the relations of the document with their attributes.
Missing: relations with the same ends (`c68_fails_for_parallel_relations`) and missing ends (`c68_fails_for_missing_ends`). -/
theorem c68_graph_partial (root : SXml) (d : SaltDoc) (hd : saltDocument root = .ok d) (hr : d.OnlyRelations)
    (hp : d.edges.Pairwise (fun x y => ¬ (x.source = y.source ∧ x.target = y.target)))
    (hends : ∀ e ∈ d.edges, ∀ n, e.source = some n ∨ e.target = some n → ∃ i : Nat, i < d.nodes.length ∧ n = i) :
    ∃ g, saltXmiGraph root = .ok (d.docId, g) ∧
      (∀ n a, find g.nodes n = some a ↔ ∃ (i : Nat) (o : SaltObj), n = i ∧ d.nodes[i]? = some o ∧ a = o.dict) ∧
      (∀ s t, (find g.edges (s, t)).isSome ↔ ∃ e ∈ d.edges, e.source = some s ∧ e.target = some t) ∧
      ∀ e ∈ d.edges, ∀ s t, e.source = some s → e.target = some t → ∃ a, find g.edges (s, t) = some a ∧ ∀ k, find a k = find e.dict k := by
  obtain ⟨g, hg, hc⟩ := c68_graph_built root d hd hr
  refine ⟨g, hg, ?_, ?_, ?_⟩
  · intro n a
    constructor
    · intro h
      by_cases hn : ∃ i : Nat, i < d.nodes.length ∧ n = i
      · obtain ⟨i, hi, rfl⟩ := hn
        have hx : d.nodes[i]? = some d.nodes[i] := List.getElem?_eq_getElem hi
        rw [hc.nodes i _ hx] at h
        exact ⟨i, _, rfl, hx, (Option.some.inj h).symm⟩
      · rw [hc.missing n (fun i hi he => hn ⟨i, hi, he⟩), if_neg] at h
        · cases h
        · rintro ⟨e, he, hx⟩
          exact hn (hends e he n hx)
    · rintro ⟨i, o, rfl, ho, rfl⟩
      exact hc.nodes i o ho
  · intro s t
    constructor
    · intro h
      by_cases hb : edgesBetween d.edges s t = []
      · rw [hc.noEdge s t hb] at h
        cases h
      · obtain ⟨e, he⟩ := List.exists_mem_of_ne_nil _ hb
        obtain ⟨he, hx⟩ := List.mem_filter.1 he
        exact ⟨e, he, of_decide_eq_true hx⟩
    · rintro ⟨e, he, hs, ht⟩
      obtain ⟨a, ha, _⟩ := hc.edge s t (by rw [between_one hs ht he hp]; simp)
      rw [ha]
      rfl
  · intro e he s t hs ht
    have hb := between_one hs ht he hp
    obtain ⟨a, ha, hk⟩ := hc.edge s t (by rw [hb]; simp)
    refine ⟨a, ha, fun k => ?_⟩
    rw [hk k, hb]
    cases hf : find e.dict k <;> simp [hf]

example : (saltDocument sampleSaltRoot).toOption.map (fun d => decide (∀ e ∈ d.edges, e.cls.isSub .edge = true)) = some true := by decide +kernel
example : (saltDocument sampleSaltRoot).toOption.map (fun d => decide (d.edges.Pairwise (fun x y => ¬ (x.source = y.source ∧ x.target = y.target)))) = some true := by decide +kernel
example : (saltXmiGraph sampleSaltRoot).toOption.map (fun g => (keys g.2.nodes, keys g.2.edges)) = some ([0, 1, 2, 3], [(1, 0), (2, 0), (3, 1), (3, 2)]) := by decide +kernel
example : (saltXmiGraph sampleSaltRoot).toOption.map (fun g => ((find g.2.edges (3, 1)).bind (find · "name"), (find g.2.nodes 2).bind (find · "name"))) =
    some (some (.str "dom_1"), some (.str "tok_2")) := by decide +kernel

theorem find_name (o : SaltObj) : find o.dict "name" = some (.str o.name) := rfl

/-- **C68 is violated** for relations with the same ends: the graph has one edge for them, so that the names of all but the last are lost. -/
theorem c68_fails_for_parallel_relations (root : SXml) (d : SaltDoc) (hd : saltDocument root = .ok d) (hr : d.OnlyRelations) (pre mid post : List SaltObj) (x y : SaltObj)
    (he : d.edges = pre ++ x :: mid ++ y :: post) (hs : x.source = y.source) (ht : x.target = y.target) (hn : ∀ z ∈ mid ++ y :: post, z.name ≠ x.name) :
    ∃ g, saltXmiGraph root = .ok (d.docId, g) ∧ ∀ s t a, x.source = some s → x.target = some t → find g.edges (s, t) = some a → find a "name" ≠ some (.str x.name) := by
  obtain ⟨g, hg, hc⟩ := c68_graph_built root d hd hr
  refine ⟨g, hg, fun s t a h1 h2 ha hx => ?_⟩
  have hy : y ∈ edgesBetween d.edges s t := by
    rw [he]
    exact List.mem_filter.2 ⟨by simp, by simp [← hs, ← ht, h1, h2]⟩
  obtain ⟨a', ha', hk⟩ := hc.edge s t (fun h0 => by rw [h0] at hy; cases hy)
  obtain rfl : a = a' := Option.some.inj (ha.symm.trans ha')
  have hmap : ∀ l : List SaltObj, l.filterMap (fun e => find e.dict "name") = l.map (fun e => SaltVal.str e.name) := by
    intro l
    induction l with
    | nil => rfl
    | cons z l ih => rw [List.filterMap_cons, find_name, ih]; rfl
  rw [hk, hmap] at hx
  have hsplit : edgesBetween d.edges s t = edgesBetween (pre ++ [x]) s t ++ edgesBetween (mid ++ y :: post) s t := by
    rw [he]
    unfold edgesBetween
    rw [← List.filter_append]
    simp
  have hne : edgesBetween (mid ++ y :: post) s t ≠ [] := by
    intro h0
    have : y ∈ edgesBetween (mid ++ y :: post) s t := List.mem_filter.2 ⟨by simp, by simp [← hs, ← ht, h1, h2]⟩
    rw [h0] at this
    cases this
  rw [hsplit, List.map_append, List.getLast?_append] at hx
  obtain ⟨z, hz⟩ : ∃ z, (edgesBetween (mid ++ y :: post) s t).getLast? = some z := by
    cases hl : (edgesBetween (mid ++ y :: post) s t).getLast? with
    | none => exact absurd (List.getLast?_eq_none_iff.1 hl) hne
    | some z => exact ⟨z, rfl⟩
  rw [List.getLast?_map, hz] at hx
  have hx : SaltVal.str z.name = .str x.name := Option.some.inj hx
  have hzm : z ∈ mid ++ y :: post := (List.mem_filter.1 (List.mem_of_getLast? hz)).1
  exact hn z hzm (by injection hx)

/-- a structure that dominates a token twice: the attributes of the edge are a mixture of those of the relations -/
def sampleParallel : SXml := .mk "{sDocumentStructure}SDocumentGraph" []
  [sampleLabel "saltCore:SElementId" (some "graph") "id" "AC" "g",
   sampleSaltPart "nodes" "sDocumentStructure:SSpan" [] [sampleLabel "saltCore:SFeature" none "SNAME" "AC" "a"],
   sampleSaltPart "nodes" "sDocumentStructure:SToken" [] [sampleLabel "saltCore:SFeature" none "SNAME" "AC" "b"],
   sampleSaltPart "edges" "sDocumentStructure:SDominanceRelation" [("source", "//@nodes.0"), ("target", "//@nodes.1")]
     [sampleLabel "saltCore:SFeature" none "SNAME" "AC" "dom", sampleLabel "saltCore:SAnnotation" none "tiger.func" "AC" "SB"],
   sampleSaltPart "edges" "sDocumentStructure:SSpanningRelation" [("source", "//@nodes.0"), ("target", "//@nodes.1")] [sampleLabel "saltCore:SFeature" none "SNAME" "AC" "span"]]

example : (saltXmiGraph sampleParallel).toOption.map (fun g => (keys g.2.edges, (find g.2.edges (0, 1)).bind (find · "name"))) = some ([(0, 1)], some (.str "span")) := by decide +kernel
example : (saltXmiGraph sampleParallel).toOption.map (fun g => ((find g.2.edges (0, 1)).bind (find · "features"))) = some (some (.feats [("tiger.func", "SB")])) := by decide +kernel

/-- **C68 is violated** for references to nodes that the document does not have: they become nodes without attributes instead of errors. -/
theorem c68_fails_for_missing_ends (root : SXml) (d : SaltDoc) (hd : saltDocument root = .ok d) (hr : d.OnlyRelations) (e : SaltObj) (he : e ∈ d.edges) (n : Int) (hn : e.target = some n)
    (hm : ∀ i : Nat, i < d.nodes.length → n ≠ i) : ∃ g, saltXmiGraph root = .ok (d.docId, g) ∧ find g.nodes n = some [] := by
  obtain ⟨g, hg, hc⟩ := c68_graph_built root d hd hr
  exact ⟨g, hg, by rw [hc.missing n hm, if_pos ⟨e, he, .inr hn⟩]⟩

/-- a relation with a missing end -/
def sampleMissingEnd : SXml := .mk "{sDocumentStructure}SDocumentGraph" []
  [sampleLabel "saltCore:SElementId" (some "graph") "id" "AC" "g",
   sampleSaltPart "nodes" "sDocumentStructure:SSpan" [] [sampleLabel "saltCore:SFeature" none "SNAME" "AC" "a"],
   sampleSaltPart "edges" "sDocumentStructure:SSpanningRelation" [("source", "//@nodes.0"), ("target", "//@nodes.7")] [sampleLabel "saltCore:SFeature" none "SNAME" "AC" "span"]]

example : (saltXmiGraph sampleMissingEnd).toOption.map (fun g => (keys g.2.nodes, find g.2.nodes 7)) = some ([0, 7], some []) := by decide +kernel

/-- **C68 is violated** for other types of Salt elements, e.g. pointing relations: no file with such an element can be read. -/
theorem c68_fails_for_other_types (root e : SXml) (tag x : String) (ht : tag ∈ ["nodes", "edges", "layers"]) (he : e ∈ root.kids tag) (hx : find e.attrs xsiType = some x)
    (hk : ∀ p ∈ saltKinds, p.1 ≠ x) : ∀ d, saltDocument root ≠ .ok d := by
  intro d hd
  obtain ⟨hc, hte⟩ := List.mem_filter.1 he
  have hin : e ∈ saltElements root tag := by
    refine List.mem_filter.2 ⟨?_, hte⟩
    obtain ⟨t, a, cs⟩ := root
    have hc : e ∈ cs := hc
    unfold SXml.inside
    clear * - hc
    induction cs with
    | nil => cases hc
    | cons c cs ih =>
      unfold SXml.insideAll
      rcases List.mem_cons.1 hc with rfl | hc
      · exact .head _
      · exact .tail _ (List.mem_append_right _ (ih hc))
  obtain ⟨_, h1, h2, h3⟩ := document_iff.1 hd
  have : ∃ os, mapE saltInstance (saltElements root tag) = .ok os := by
    simp only [List.mem_cons, List.not_mem_nil, or_false] at ht
    rcases ht with rfl | rfl | rfl
    · exact ⟨_, h1⟩
    · exact ⟨_, h2⟩
    · exact ⟨_, h3⟩
  obtain ⟨os, hos⟩ := this
  obtain ⟨o, _, ho⟩ := forall₂_mem_left (mapE_ok.1 hos) hin
  obtain ⟨x', k, hx', hk', _⟩ := instance_iff.1 ho
  obtain rfl : x = x' := Option.some.inj (hx.symm.trans hx')
  exact hk _ hk' rfl

example : ∀ p ∈ saltKinds, p.1 ≠ "sDocumentStructure:SPointingRelation" := by decide

end Dg
