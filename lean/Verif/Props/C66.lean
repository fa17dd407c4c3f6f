import Verif.Lemmas.PaulaWhole

/-! C66: export to PAULA XML (readwrite/paulaxml/paula.py). -/

namespace Dg
open Dict (find keys vals put find_put mem_find find_some_mem nodup_put mem_keys_put mem_keys_iff find_eq_none_iff)
namespace DG

/-- a layer that some node or edge belongs to -/
def LayerInUse (g : DG) (l : String) : Prop := (∃ n, g.NodeLayer n (.str l)) ∨ ∃ u v k, g.EdgeLayer u v k (.str l)

/-- `t` is the part of `s` before its first dot (all of `s` if it has none) -/
def BeforeDot (s t : String) : Prop := '.' ∉ t.toList ∧ (s = t ∨ ∃ rest, s.toList = t.toList ++ '.' :: rest)

theorem paulaName_spec (s : String) : BeforeDot s (paulaName s) := by
  refine ⟨paulaName_noDot s, ?_⟩
  unfold paulaName
  simp only [String.toList_ofList]
  have hs := List.takeWhile_append_dropWhile (p := fun c => c != '.') (l := s.toList)
  cases hd : s.toList.dropWhile (fun c => c != '.') with
  | nil =>
    left
    rw [hd, List.append_nil] at hs
    rw [hs, String.ofList_toList]
  | cons c rest =>
    right
    have hc : c = '.' := by
      have := List.head?_dropWhile_not (fun c => c != '.') s.toList
      rw [hd] at this
      simpa using this
    refine ⟨rest, ?_⟩
    rw [hd, hc] at hs
    exact hs.symm

/-- the mapping of node IDs -/
abbrev xpointerMap (g : DG) : Dict NodeId NodeId := (keys g.nodes).map (fun n => (n, ensureXpointer n))

theorem keys_xpointerMap (g : DG) : keys g.xpointerMap = keys g.nodes := by
  unfold xpointerMap
  rw [show keys ((keys g.nodes).map (fun n => (n, ensureXpointer n))) = ((keys g.nodes).map (fun n => (n, ensureXpointer n))).map Prod.fst from rfl, List.map_map]
  exact List.map_id _

theorem find_xpointerMap {g : DG} (nd : (keys g.nodes).Nodup) {n : NodeId} (h : g.HasNode n) : find g.xpointerMap n = some (ensureXpointer n) :=
  mem_find (by rw [keys_xpointerMap]; exact nd) (List.mem_map.2 ⟨n, h, rfl⟩)

theorem find_xpointerMap_some {g : DG} {n m : NodeId} (h : find g.xpointerMap n = some m) : g.HasNode n ∧ m = ensureXpointer n := by
  obtain ⟨x, hx, he⟩ := List.mem_map.1 (find_some_mem h)
  cases he
  exact ⟨hx, rfl⟩

theorem xpointer_noColon (s : String) : ∃ r, ensureXpointer (.str s) = .str r ∧ ':' ∉ r.toList ∧ r.toList.length = s.toList.length := by
  obtain ⟨r, h1, h2, h3, _⟩ := c45_xpointer s
  exact ⟨r, h1, h2, h3⟩

theorem renamed_edge {f : NodeId → NodeId} {g h : DG} (hr : Renamed f g h) {u' v' : NodeId} {k : Key} {a' : Attrs} (he : h.edgeAttrs u' v' k = some a') :
    ∃ u v a, g.edgeAttrs u v k = some a ∧ f u = u' ∧ f v = v' ∧ SameAttrs a a' := by
  obtain ⟨u, v, h1, rfl, rfl⟩ := hr.noOtherEdges u' v' k (by unfold HasEdge; rw [he]; rfl)
  obtain ⟨a, ha⟩ := Option.isSome_iff_exists.1 h1
  obtain ⟨a'', h2, h3⟩ := hr.edges u v k a ha
  rw [he] at h2
  injection h2 with h2
  subst h2
  exact ⟨u, v, a, ha, rfl, rfl, h3⟩

theorem renamed_node {f : NodeId → NodeId} {g h : DG} (hr : Renamed f g h) {n' : NodeId} {a' : Attrs} (he : h.nodeAttrs n' = some a') :
    ∃ n a, g.nodeAttrs n = some a ∧ f n = n' ∧ SameAttrs a a' := by
  obtain ⟨n, h1, rfl⟩ := hr.noOtherNodes n' ((hasNode_some h n').2 ⟨a', he⟩)
  obtain ⟨a, ha⟩ := (hasNode_some g n).1 h1
  obtain ⟨a'', h2, h3⟩ := hr.nodes n a ha
  rw [he] at h2
  injection h2 with h2
  subst h2
  exact ⟨n, a, ha, rfl, h3⟩

/-- **C66, partial**.  Exporting a document graph yields a set of files that says exactly what the graph says.  Let `h` be the graph with every ':' in a node ID replaced by '_' and everything else
unchanged.  Then the files are, with distinct names: the primary text, the tokens (each mark selects precisely the characters of its token), for each top level layer the seven files described by
`PaulaLayerSays` (spans, hierarchy, pointing relations, and the attributes of tokens, nodes and edges; each node, each pair of connected nodes and each attribute once, none invented) and the list
of all these files.
Missing (hypotheses): node IDs are strings with a colon that stay different when ':' becomes '_'; edges have a type and exported attributes are strings (see `c66_fails_…`); layer names are plain
and have no dot. -/
theorem c66_paula_export_partial (g : DG) (hr : Reachable g) (hl : NodesLayeredNE g) (ht : g.Typed) (hs : g.StringValued) (strs : List String) (htok : g.HasTokens strs)
    (hid : ∀ n, g.HasNode n → ∃ s, n = .str s ∧ ':' ∈ s.toList)
    (hinj : ∀ n m, g.HasNode n → g.HasNode m → ensureXpointer n = ensureXpointer m → n = m)
    (hlay : ∀ s t, g.LayerInUse s → IsTopLevel s t → plain t = true ∧ '.' ∉ t.toList)
    (corpus : String) (snp : Bool) (order : Option (List NodeId)) (ho : RelabelOrder g.xpointerMap order) :
    ∃ h files layers name, g.paulaDocument corpus snp order = .ok files ∧ Renamed ensureXpointer g h ∧ BeforeDot g.name name ∧
      layers.Nodup ∧ (∀ t, t ∈ layers ↔ ∃ s, g.LayerInUse s ∧ IsTopLevel s t) ∧
      PaulaSays { h with tokens := g.tokens.map ensureXpointer } snp corpus name strs layers files := by
  have hi := hr.inv
  have hn := hi.wf.nodesNodup
  -- the renaming
  have hkeys := keys_xpointerMap g
  have hnew : ∀ n m, g.HasNode n → ensureXpointer n = m → ¬ g.HasNode m := by
    rintro n m h1 rfl h2
    obtain ⟨s, rfl, _⟩ := hid n h1
    obtain ⟨r, e1, e2, _⟩ := xpointer_noColon s
    obtain ⟨s', e3, e4⟩ := hid _ h2
    rw [e1] at e3
    injection e3 with e3
    exact e2 (e3 ▸ e4)
  have hdis : ¬ ∃ x, x ∈ keys g.xpointerMap ∧ x ∈ vals g.xpointerMap := by
    rintro ⟨x, h1, h2⟩
    rw [hkeys] at h1
    obtain ⟨⟨n, m⟩, hm, rfl⟩ := List.mem_map.1 h2
    obtain ⟨n', hn', he⟩ := List.mem_map.1 hm
    cases he
    exact hnew _ _ hn' rfl h1
  unfold RelabelOrder at ho
  rw [if_neg hdis] at ho
  obtain ⟨l, rfl, hp⟩ := ho
  obtain ⟨h, e1, e2, e3, e4⟩ := relabelLoop_spec hi g.xpointerMap l (hp.nodup_iff.2 (by rw [hkeys]; exact hn)) (fun o ho => by rw [hkeys] at ho; exact ho)
    (fun o o' n h1 h2 => by
      obtain ⟨a1, rfl⟩ := find_xpointerMap_some h1
      obtain ⟨a2, a3⟩ := find_xpointerMap_some h2
      exact hinj _ _ a1 a2 a3)
    (fun o n h1 => by
      obtain ⟨a1, rfl⟩ := find_xpointerMap_some h1
      exact Or.inl (hnew o _ a1 rfl))
    (fun o n h1 => by
      obtain ⟨a1, rfl⟩ := find_xpointerMap_some h1
      obtain ⟨s, rfl, hc⟩ := hid o a1
      obtain ⟨r, b1, _, b3⟩ := xpointer_noColon s
      left
      rw [b1]
      have : r ≠ "" := by
        rintro rfl
        have : s.toList.length = 0 := b3 ▸ rfl
        rw [List.length_eq_zero_iff] at this
        rw [this] at hc; simp at hc
      simpa [NodeId.truthy] using this)
    l [] g (by simp) hi hl ((Renamed.refl g).congr hi.wf (by intro n _; simp [applyOn]))
  rw [applyOn_all (fun o h => hp.mem_iff.2 h)] at e4
  have hren : Renamed ensureXpointer g h := e4.congr hi.wf (by
    intro n hnn
    unfold applyMap
    rw [find_xpointerMap hn hnn]; rfl)
  have htoks : mapE (paulaMapped g.xpointerMap) g.tokens = .ok (g.tokens.map ensureXpointer) := by
    rw [mapE_ok, List.forall₂_map_right_iff, List.forall₂_same]
    intro t htm
    obtain ⟨s, _, hts⟩ := forall₂_mem_left htok htm
    obtain ⟨a, ha⟩ := nodeAttr_hasNode hts
    unfold paulaMapped
    rw [find_xpointerMap hn ((hasNode_some g t).2 ⟨a, ha⟩)]
  have hgraph : g.paulaGraph (some l) = .ok { h with tokens := g.tokens.map ensureXpointer } := by
    unfold paulaGraph
    dsimp only
    have : relabelInplace g (List.map (fun n => (n, ensureXpointer n)) (keys g.nodes)) (some l) = (h, none) := e1
    rw [this]
    dsimp only
    have e5 : mapE (paulaMapped (List.map (fun n => (n, ensureXpointer n)) (keys g.nodes))) g.tokens = .ok (g.tokens.map ensureXpointer) := htoks
    rw [e5]; rfl
  have hready : PaulaReady { h with tokens := g.tokens.map ensureXpointer } strs := by
    refine ⟨inv_tokens e2 _, e3, ?_, ⟨?_, ?_⟩, ?_, ?_⟩
    · intro u v k a ha
      obtain ⟨u0, v0, a0, h1, _, _, h2⟩ := renamed_edge hren (a' := a) ha
      obtain ⟨x, hx⟩ := ht u0 v0 k a0 h1
      exact ⟨x, by rw [← h2.1 _ (by decide)]; exact hx⟩
    · intro n a k v ha hk hw
      obtain ⟨n0, a0, h1, _, h2⟩ := renamed_node hren (a' := a) ha
      refine hs.1 n0 a0 k v h1 ?_ hw
      rw [h2.1 _ (by rintro rfl; exact hw (by simp))]; exact hk
    · intro u v e a k x ha hk hw
      obtain ⟨u0, v0, a0, h1, _, _, h2⟩ := renamed_edge hren (a' := a) ha
      refine hs.2 u0 v0 e a0 k x h1 ?_ hw
      rw [h2.1 _ (by rintro rfl; exact hw (by simp))]; exact hk
    · intro n hnn
      obtain ⟨n0, h1, rfl⟩ := hren.noOtherNodes n hnn
      obtain ⟨s, rfl, _⟩ := hid n0 h1
      obtain ⟨r, b1, b2, _⟩ := xpointer_noColon s
      exact ⟨r, b1, b2⟩
    · unfold HasTokens
      rw [List.forall₂_map_left_iff]
      refine htok.imp ?_
      intro t s hts
      obtain ⟨a, ha⟩ := nodeAttr_hasNode hts
      obtain ⟨a', h1, h2⟩ := hren.nodes t a ha
      unfold TokenStr nodeAttr at hts ⊢
      rw [ha] at hts
      have hns : h.ns = g.ns := hren.rest.2.1
      change (h.nodeAttrs (ensureXpointer t)).bind (find · (h.ns ++ (":" ++ "token"))) = _
      rw [h1, hns]
      change find a' (qual g.ns "token") = _
      rw [← h2.1 _ (qual_ne_plain (by decide))]
      exact hts
  -- the layers
  obtain ⟨r, hr1, hr2⟩ := c12_get_top_level_layers g hr (fun n a ha => by
    obtain ⟨xs, hx, hxs, _⟩ := hl n a ha
    exact ⟨xs, hx, hxs⟩)
  have hrs : ∀ x ∈ r, ∃ t, paulaLayerName x = .ok t ∧ x = .str t := by
    intro x hx
    obtain ⟨s, t, rfl, _⟩ := (hr2 x).1 hx
    exact ⟨t, rfl, rfl⟩
  obtain ⟨layers, hlayers⟩ := forall₂_of_exists hrs
  have hrl : r = layers.map Atom.str := by
    clear * - hlayers
    induction hlayers with
    | nil => rfl
    | cons h1 _ ih => rw [List.map_cons, ← ih, h1.2]
  have hnl : layers.Nodup := by
    have := getTopLevelLayers_nodup hr1
    rw [hrl] at this
    exact this.of_map
  have hmem : ∀ t, t ∈ layers ↔ ∃ s, g.LayerInUse s ∧ IsTopLevel s t := by
    intro t
    have := hr2 (.str t)
    rw [hrl, List.mem_map] at this
    constructor
    · intro hm
      obtain ⟨s, t', he, h1, h2⟩ := this.1 ⟨t, hm, rfl⟩
      injection he with he
      subst he
      exact ⟨s, h2, h1⟩
    · rintro ⟨s, h1, h2⟩
      obtain ⟨x, hx, he⟩ := this.2 ⟨s, t, rfl, h2, h1⟩
      injection he with he
      exact he ▸ hx
  obtain ⟨t, k, files, f1, f2, f3, f4⟩ := paulaSays_ready hready snp corpus (paulaName g.name) layers
    (fun t htm => by
      obtain ⟨s, h1, h2⟩ := (hmem t).1 htm
      exact hlay s t h1 h2) hnl (paulaName_noDot _)
  refine ⟨h, _, layers, paulaName g.name, ?_, hren, paulaName_spec _, hnl, hmem, f4⟩
  unfold paulaDocument
  dsimp only
  rw [hgraph, except_bind_ok, f1, except_bind_ok, f2, except_bind_ok, hr1, except_bind_ok, mapE_of_forall (hlayers.imp (fun _ _ h => h.1)), except_bind_ok, f3, except_bind_ok]

/-! ### references between the files -/

/-- **C66 (references)**.  The files of a layer refer to each other consistently: the token annotations list the tokens of the token file in the same order; each annotated dominance edge is a `<rel>` of the
hierarchy; the annotated pointing relations are exactly those of the pointing file. -/
theorem c66_references (g : DG) (snp : Bool) (corpus name : String) (strs layers : List String) (files : PaulaFiles) (h : g.PaulaSays snp corpus name strs layers files)
    (l : String) (hl : l ∈ layers) :
    (∃ toks feats, find files (docFile corpus name ".tok") = some (.marks "tok" (docFile corpus name ".text.xml") toks, "paula_mark.dtd") ∧
      find files (layerFile corpus name l ".tok_multiFeat") = some (.feats (docFile corpus name ".tok.xml") feats, "paula_multiFeat.dtd") ∧
      feats.map (fun x => some x.1) = toks.map (fun x => x.1.map ("#" ++ ·))) ∧
    (∃ structs feats, find files (hierarchyFile corpus name l) = some (.structs l structs, "paula_struct.dtd") ∧
      find files (layerFile corpus name l ("_" ++ (l ++ "_rel"))) = some (.feats (hierarchyFile corpus name l ++ ".xml") feats, "paula_multiFeat.dtd") ∧
      ∀ x ∈ feats, ∃ y ∈ structs, ∃ r ∈ y.2, x.1 = "#" ++ r.1) ∧
    ∃ rels feats, find files (layerFile corpus name l ("_" ++ (l ++ "_pointing"))) = some (.rels rels, "paula_rel.dtd") ∧
      find files (layerFile corpus name l ("_" ++ (l ++ "_pointing_multiFeat"))) = some (.feats (layerFile corpus name l ("_" ++ (l ++ "_pointing")) ++ ".xml") feats, "paula_multiFeat.dtd") ∧
      ∀ x, x ∈ feats.map Prod.fst ↔ x ∈ rels.map (fun r => "#" ++ r.1) := by
  have hL := h.layer l hl
  have mem_pairs : ∀ (d : List (NodeId × List (NodeId × Attrs))) u v a, (u, v, a) ∈ edgePairs d ↔ ∃ p ∈ d, p.1 = u ∧ (v, a) ∈ p.2 := by
    intro d u v a
    unfold edgePairs
    rw [List.mem_flatMap]
    constructor
    · rintro ⟨p, hp, hm⟩
      obtain ⟨q, hq, he⟩ := List.mem_map.1 hm
      cases he
      exact ⟨p, hp, rfl, hq⟩
    · rintro ⟨p, hp, rfl, hq⟩
      exact ⟨p, hp, List.mem_map.2 ⟨(v, a), hq, rfl⟩⟩
  refine ⟨?_, ?_, ?_⟩
  · obtain ⟨toks, h1, h2, h3, h4⟩ := h.tokens
    obtain ⟨feats, f1, f2⟩ := hL.tokenAnno
    refine ⟨toks, feats, h1, f1, ?_⟩
    have hlen := f2.length_eq
    apply List.ext_getElem?
    intro i
    rw [List.getElem?_map, List.getElem?_map]
    by_cases hi : i < g.tokens.length
    · obtain ⟨onset, e1, _, _⟩ := h4 i g.tokens[i] strs[i] (List.getElem?_eq_getElem hi) (List.getElem?_eq_getElem (h3 ▸ hi))
      rw [e1]
      have hj : i < feats.length := hlen ▸ hi
      have := List.forall₂_iff_get.1 f2
      have := (this.2 i hi hj).1
      simp only [List.get_eq_getElem] at this
      rw [List.getElem?_eq_getElem hj]
      simp [this]
    · rw [List.getElem?_eq_none (by omega), List.getElem?_eq_none (by omega)]; rfl
  · obtain ⟨d, structs, h1, h2, h3⟩ := hL.hierarchy
    obtain ⟨d', feats, f1, f2, f3⟩ := hL.edgeAnno
    have hbase : hierarchyFile corpus name l ++ ".xml" = layerFile corpus name l ("_" ++ (l ++ ".xml")) := by
      simp only [hierarchyFile, layerFile, String.append_assoc]
    refine ⟨structs, feats, h1, by rw [hbase]; exact f1, ?_⟩
    intro x hx
    obtain ⟨⟨u, v, a⟩, he, hx1, _⟩ := forall₂_mem_right f3 hx
    obtain ⟨p, hp, rfl, hq⟩ := (mem_pairs _ _ _ _).1 he
    have hE := f2.edges p hp (v, a) hq
    obtain ⟨p', hp', hpu, q', hq', hqv⟩ := h2.all p.1 v a (Or.inl hE)
    obtain ⟨y, hy, _, hy2⟩ := forall₂_mem_left h3 hp'
    obtain ⟨r, hr, hr1, _⟩ := forall₂_mem_left hy2 hq'
    refine ⟨y, hy, r, hr, ?_⟩
    rw [hx1, hr1, hpu, hqv]
  · obtain ⟨d, rels, h1, h2, h3⟩ := hL.pointing
    obtain ⟨d', feats, f1, f2, f3⟩ := hL.pointingAnno
    have hbase : layerFile corpus name l ("_" ++ (l ++ "_pointing")) ++ ".xml" = layerFile corpus name l ("_" ++ (l ++ "_pointing.xml")) := by
      simp only [layerFile, String.append_assoc]; rfl
    refine ⟨rels, feats, h1, by rw [hbase]; exact f1, ?_⟩
    have key : ∀ (E : NodeId → NodeId → Attrs → Prop) (d d' : List (NodeId × List (NodeId × Attrs))), Grouped E d → Grouped E d' → ∀ e ∈ edgePairs d, ∃ e' ∈ edgePairs d', e'.1 = e.1 ∧ e'.2.1 = e.2.1 := by
      rintro E d d' hd hd' ⟨u, v, a⟩ he
      obtain ⟨p, hp, rfl, hq⟩ := (mem_pairs _ _ _ _).1 he
      obtain ⟨p', hp', hpu, q', hq', hqv⟩ := hd'.all _ _ _ (hd.edges p hp (v, a) hq)
      exact ⟨(p'.1, q'), (mem_pairs _ _ _ _).2 ⟨p', hp', rfl, hq'⟩, hpu, hqv⟩
    intro x
    constructor
    · intro hx
      obtain ⟨y, hy, rfl⟩ := List.mem_map.1 hx
      obtain ⟨e, he, hy1, _⟩ := forall₂_mem_right f3 hy
      obtain ⟨e', he', e1, e2⟩ := key _ _ _ f2 h2 e he
      obtain ⟨r, hr, hr1, _⟩ := forall₂_mem_left h3 he'
      refine List.mem_map.2 ⟨r, hr, ?_⟩
      rw [hr1, hy1, e1, e2]
    · intro hx
      obtain ⟨r, hr, rfl⟩ := List.mem_map.1 hx
      obtain ⟨e, he, hr1, _⟩ := forall₂_mem_right h3 hr
      obtain ⟨e', he', e1, e2⟩ := key _ _ _ h2 f2 e he
      obtain ⟨y, hy, hy1, _⟩ := forall₂_mem_left f3 he'
      refine List.mem_map.2 ⟨y, hy, ?_⟩
      rw [hr1, hy1, e1, e2]

/-! ### an example -/

/-- "Das Haus" with a noun phrase below the root, and a pointing relation -/
def samplePaula : DG := (init "maz.1.xml" "x" none).run [
  .addNode (.str "x:t1") (.atom .none) .none [("x:token", .atom (.str "Das")), ("x:pos", .atom (.str "ART"))],
  .addNode (.str "x:t2") (.atom .none) .none [("x:token", .atom (.str "Haus")), ("rst:role", .atom (.str "N"))],
  .addNode (.str "x:np") (.set [.str "x", .str "x:syntax"]) .none [("cat", .atom (.str "NP")), ("label", .atom (.str "NP"))],
  .addEdge (.str "x:root_node") (.str "x:np") (.atom .none) none .none [("edge_type", .atom (.str "dominates")), ("func", .atom (.str "HD"))],
  .addEdge (.str "x:np") (.str "x:t2") (.atom .none) none .none [("edge_type", .atom (.str "spans"))],
  .addEdge (.str "x:np") (.str "x:t1") (.atom .none) none .none [("edge_type", .atom (.str "spans"))],
  .addEdge (.str "x:t2") (.str "x:np") (.atom .none) none .none [("edge_type", .atom (.str "points_to")), ("kind", .atom (.str "c"))],
  .setTokens [.str "x:t1", .str "x:t2"]]

theorem reachable_samplePaula : Reachable samplePaula := ⟨"maz.1.xml", "x", none, _, by decide, rfl⟩

def isStrVal : Val → Bool
  | .atom (.str _) => true
  | _ => false

theorem isStrVal_ok {v : Val} (h : isStrVal v = true) : ∃ s, v = .atom (.str s) := by
  unfold isStrVal at h
  split at h
  · exact ⟨_, rfl⟩
  · cases h

/-- a check of `StringValued` -/
theorem stringValued_of {g : DG} (hi : Inv g)
    (h1 : g.nodes.all (fun p => p.2.all (fun kv => decide (kv.1 ∈ ["layers", "label", "metadata", "tokens", "tiger:id", "tiger:art_id", "tiger:orig_id"]) || isStrVal kv.2)) = true)
    (h2 : g.edges.all (fun e => e.2.2.2.all (fun kv => decide (kv.1 ∈ ["layers", "label", "tiger:idref"]) || isStrVal kv.2)) = true) : g.StringValued := by
  constructor
  · intro n a k v ha hk hw
    have := List.all_eq_true.1 (List.all_eq_true.1 h1 (n, a) (find_some_mem ha)) (k, v) (find_some_mem hk)
    simp only [Bool.or_eq_true, decide_eq_true_eq] at this
    rcases this with h | h
    · exact absurd h hw
    · exact isStrVal_ok h
  · intro u v e a k x ha hk hw
    have := List.all_eq_true.1 (List.all_eq_true.1 h2 (u, v, e, a) ((mem_edges_iff hi.wf _ _ _ _).2 ha)) (k, x) (find_some_mem hk)
    simp only [Bool.or_eq_true, decide_eq_true_eq] at this
    rcases this with h | h
    · exact absurd h hw
    · exact isStrVal_ok h

theorem typed_of {g : DG} (hi : Inv g) (h : g.edges.all (fun e => (find e.2.2.2 "edge_type").isSome) = true) : g.Typed := by
  intro u v k a ha
  exact Option.isSome_iff_exists.1 (List.all_eq_true.1 h (u, v, k, a) ((mem_edges_iff hi.wf _ _ _ _).2 ha))

/-- the hypotheses are met -/
example (order : Option (List NodeId)) (ho : RelabelOrder samplePaula.xpointerMap order) :
    ∃ h files layers name, samplePaula.paulaDocument "c" true order = .ok files ∧ Renamed ensureXpointer samplePaula h ∧ BeforeDot samplePaula.name name ∧
      layers.Nodup ∧ (∀ t, t ∈ layers ↔ ∃ s, samplePaula.LayerInUse s ∧ IsTopLevel s t) ∧
      PaulaSays { h with tokens := samplePaula.tokens.map ensureXpointer } true "c" name ["Das", "Haus"] layers files := by
  have hi := reachable_samplePaula.inv
  have hnodes : keys samplePaula.nodes = [.str "x:root_node", .str "x:t1", .str "x:t2", .str "x:np"] := by decide
  refine c66_paula_export_partial samplePaula reachable_samplePaula ?_ (typed_of hi (by decide)) (stringValued_of hi (by decide) (by decide)) ["Das", "Haus"] ?_ ?_ ?_ ?_ "c" true order ho
  · apply layered_of_all
    have : samplePaula.nodes.map (fun p => find p.2 "layers") = [some (.set [.str "x"]), some (.set [.str "x"]), some (.set [.str "x"]), some (.set [.str "x", .str "x:syntax"])] := by decide
    intro p hp
    have hm := List.mem_map_of_mem (f := fun p : NodeId × Attrs => find p.2 "layers") hp
    rw [this] at hm
    simp only [List.mem_cons, List.not_mem_nil, or_false] at hm
    rcases hm with hm | hm | hm | hm <;> exact ⟨_, hm, by simp, by simp⟩
  · unfold HasTokens TokenStr
    have : samplePaula.tokens = [.str "x:t1", .str "x:t2"] := by decide
    rw [this]
    exact .cons (by decide) (.cons (by decide) .nil)
  · intro n hn
    unfold HasNode at hn
    rw [hnodes] at hn
    simp only [List.mem_cons, List.not_mem_nil, or_false] at hn
    rcases hn with rfl | rfl | rfl | rfl <;> exact ⟨_, rfl, by decide⟩
  · intro n m hn hm
    unfold HasNode at hn hm
    rw [hnodes] at hn hm
    simp only [List.mem_cons, List.not_mem_nil, or_false] at hn hm
    rcases hn with rfl | rfl | rfl | rfl <;> rcases hm with rfl | rfl | rfl | rfl <;> decide
  · intro s t hs htl
    have hset : ∀ a l, AttrsLayer a l → a ∈ vals samplePaula.nodes ++ samplePaula.edges.map (fun e => e.2.2.2) → l = .str "x" ∨ l = .str "x:syntax" := by
      rintro a l ⟨xs, h1, h2⟩ hm
      have : ∀ a ∈ vals samplePaula.nodes ++ samplePaula.edges.map (fun e => e.2.2.2), find a "layers" = some (.set [.str "x"]) ∨ find a "layers" = some (.set [.str "x", .str "x:syntax"]) := by decide
      rcases this a hm with h | h <;> (rw [h] at h1; injection h1 with h1; injection h1 with h1; subst h1; simp at h2; tauto)
    have hst : s = "x" ∨ s = "x:syntax" := by
      have : Atom.str s = .str "x" ∨ Atom.str s = .str "x:syntax" := by
        rcases hs with ⟨n, a, ha, hl⟩ | ⟨u, v, k, a, ha, hl⟩
        · exact hset a _ hl (List.mem_append_left _ (List.mem_map_of_mem (f := Prod.snd) (find_some_mem ha)))
        · exact hset a _ hl (List.mem_append_right _ (List.mem_map.2 ⟨(u, v, k, a), (mem_edges_iff hi.wf _ _ _ _).2 ha, rfl⟩))
      rcases this with h | h <;> (injection h with h; subst h; simp)
    obtain ⟨hc, h⟩ := htl
    have ht : t = "x" := by
      rcases hst with rfl | rfl
      · rcases h with h | ⟨rest, h⟩
        · exact h.symm
        · have : ':' ∈ "x".toList := by rw [h]; simp
          exact absurd this (by decide)
      · rcases h with rfl | ⟨rest, h⟩
        · exact absurd (by decide : ':' ∈ "x:syntax".toList) hc
        · apply String.toList_inj.1
          cases htl : t.toList with
          | nil => rw [htl] at h; simp at h
          | cons c cs =>
            rw [htl] at h hc
            simp only [List.mem_cons, not_or] at hc
            change ['x', ':', 's', 'y', 'n', 't', 'a', 'x'] = _ at h
            injection h with h1 h2
            cases cs with
            | nil => rw [← h1]; rfl
            | cons c' cs => injection h2 with h2 _; exact absurd (by rw [h2]; simp) hc.2
    subst ht
    decide

/-- the files of the example -/
example : ((samplePaula.paulaDocument "c" true (some [.str "x:t1", .str "x:np", .str "x:root_node", .str "x:t2"])).toOption.map (fun f => f.map Prod.snd)) = some [
    (.text "Das Haus", "paula_text.dtd"),
    (.marks "tok" "c.maz.text.xml" [(some "x_t1", "#xpointer(string-range(//body,'',1,3))"), (some "x_t2", "#xpointer(string-range(//body,'',5,4))")], "paula_mark.dtd"),
    (.feats "c.maz.tok.xml" [("#x_t1", [("x:token", "Das"), ("x:pos", "ART")]), ("#x_t2", [("x:token", "Haus")])], "paula_multiFeat.dtd"),
    (.marks "x" "c.maz.tok.xml" [(none, "#x_t1 #x_t2")], "paula_mark.dtd"),
    (.structs "x" [("x_root_node", [("rel_x_root_node_x_np", "dominates", "#x_np")]), ("x_np", [("rel_x_np_x_t1", "spans", "c.maz.tok.xml#x_t1"), ("rel_x_np_x_t2", "spans", "c.maz.tok.xml#x_t2")])], "paula_struct.dtd"),
    (.feats "x.c.maz_x.xml" [("#x_np", [("cat", "NP")]), ("#x_root_node", [])], "paula_multiFeat.dtd"),
    (.feats "x.c.maz_x.xml" [("#rel_x_root_node_x_np", [("edge_type", "dominates"), ("func", "HD")])], "paula_multiFeat.dtd"),
    (.rels [("rel_x_t2_x_np", "c.maz.tok.xml#x_t2", "x.c.maz_x.xml#x_np")], "paula_rel.dtd"),
    (.feats "x.c.maz_x_pointing.xml" [("#rel_x_t2_x_np", [("edge_type", "points_to"), ("kind", "c")])], "paula_multiFeat.dtd"),
    (.annoset [("rel_0", "c.maz.text.xml"), ("rel_1", "c.maz.tok.xml"), ("rel_2", "x.c.maz.tok_multiFeat.xml"), ("rel_3", "x.c.maz_x_seg.xml"), ("rel_4", "x.c.maz_x.xml"), ("rel_5", "x.c.maz_x_struct.xml"),
      ("rel_6", "x.c.maz_x_rel.xml"), ("rel_7", "x.c.maz_x_pointing.xml"), ("rel_8", "x.c.maz_x_pointing_multiFeat.xml")], "paula_struct.dtd")] := by
  decide +kernel

/-! ### where the export fails -/

/-- the body of a file -/
def bodyOf (r : Except PyErr PaulaFiles) (file : String) : Option PaulaBody := (r.toOption.bind (fun f => find f file)).map Prod.fst

/-- **C66 is violated**: the code means to leave out the root node, but compares with its ID before the renaming: it is exported with all its edges. -/
theorem c66_fails_to_exclude_root : ∃ items, bodyOf (samplePaula.paulaDocument "c" true (some [.str "x:t1", .str "x:np", .str "x:root_node", .str "x:t2"])) "x.c.maz_x" =
    some (.structs "x" (("x_root_node", [("rel_x_root_node_x_np", "dominates", "#x_np")]) :: items)) :=
  ⟨[("x_np", [("rel_x_np_x_t1", "spans", "c.maz.tok.xml#x_t1"), ("rel_x_np_x_t2", "spans", "c.maz.tok.xml#x_t2")])], by decide +kernel⟩

/-! #### IDs without a colon -/

/-- attribute `k` of `t` is not set -/
def Lacks (t : NodeId) (k : String) (g : DG) : Prop := g.nodeAttr t k = none

theorem lacks_iff {t : NodeId} {k : String} {g : DG} : Lacks t k g ↔ ∀ a, find g.nodes t = some a → find a k = none := by
  unfold Lacks nodeAttr nodeAttrs
  cases find g.nodes t <;> simp

variable {t : NodeId} {k : String}

theorem lacks_newNode {g : DG} (h : Lacks t k g) (n : NodeId) (a : Attrs) (ha : n = t → find a k = none) : Lacks t k (g.newNode n a) := by
  rw [lacks_iff] at h ⊢
  intro b hb
  unfold newNode at hb
  simp only [find_put] at hb
  split at hb
  · rename_i hn; injection hb with hb; subst hb; exact ha hn
  · exact h b hb

theorem lacks_ensureNode (hk : k ≠ "layers") {g : DG} (h : Lacks t k g) (n : NodeId) : Lacks t k (g.ensureNode n) := by
  unfold ensureNode
  split
  · exact h
  · refine lacks_newNode h n _ (fun _ => ?_)
    simp [find, Ne.symm hk]

theorem lacks_putKeyDict {g : DG} (h : Lacks t k g) (u v : NodeId) (kd : KeyDict) : Lacks t k (g.putKeyDict u v kd) := by
  rw [lacks_iff] at h ⊢
  intro b hb
  refine h b ?_
  unfold putKeyDict at hb
  split at hb <;> exact hb

theorem lacks_addEdge (hk : k ≠ "layers") {g g' : DG} (h : Lacks t k g) {u v : NodeId} {ls : Val} {key : Option Key} {ad : AttrArg} {attr : Attrs} (he : g.addEdge u v ls key ad attr = .ok g') : Lacks t k g' := by
  have h1 : Lacks t k ((g.ensureNode u).ensureNode v) := lacks_ensureNode hk (lacks_ensureNode hk h u) v
  have hput : ∀ kd, Lacks t k (((g.ensureNode u).ensureNode v).putKeyDict u v kd) := fun kd => lacks_putKeyDict h1 u v kd
  unfold addEdge at he
  simp only [bind, Except.bind] at he
  repeat' split at he
  all_goals first | cases he | skip
  all_goals exact hput _

theorem lacks_addEdgeItem (hk : k ≠ "layers") {g : DG} (h : Lacks t k g) (ad : Attrs) (u v : NodeId) (key : Option Key) (dd : Attrs) : Lacks t k (g.addEdgeItem ad u v key dd).1 := by
  have hput : ∀ (c : Bool) kd, Lacks t k (if c then g.putKeyDict u v kd else g) := by
    intro c kd
    cases c
    · exact h
    · exact lacks_putKeyDict h u v kd
  unfold addEdgeItem
  dsimp only
  split
  · exact h
  · split
    · exact h
    · split
      · exact hput _ _
      · split
        · rename_i hadd; exact lacks_addEdge hk (hput _ _) hadd
        · exact hput _ _

theorem lacks_addEdgesFrom (hk : k ≠ "layers") {g : DG} (h : Lacks t k g) (its : List EdgeItem) (ad : AttrArg) (attr : Attrs) : Lacks t k (g.addEdgesFrom its ad attr).1 := by
  rcases addEdgesFrom_eq (g := g) (its := its) (ad := ad) (attr := attr) with ⟨_, h1⟩ | ⟨A, h1, _⟩
  · rw [h1]; exact h
  · rw [h1]
    refine addEdgesLoop_induct (Lacks t k) A its (fun g' it _ hg => ?_) g h
    cases it with
    | e3 u v d => exact lacks_addEdgeItem hk hg _ _ _ _ _
    | e4 u v key d => exact lacks_addEdgeItem hk hg _ _ _ _ _
    | badLen => exact hg

theorem lacks_addNode {g g' : DG} (h : Lacks t k g) {n : NodeId} (hn : n ≠ t) {ls : Val} {ad : AttrArg} {attr : Attrs} (he : g.addNode n ls ad attr = .ok g') : Lacks t k g' := by
  unfold addNode at he
  simp only [bind, Except.bind] at he
  repeat' split at he
  all_goals first | cases he | skip
  · exact lacks_newNode h n _ (fun hc => absurd hc hn)
  · rw [lacks_iff] at h ⊢
    intro b hb
    simp only [find_put] at hb
    split at hb
    · rename_i hc; exact absurd hc hn
    · exact h b hb

theorem lacks_removeNode {g g' : DG} (h : Lacks t k g) {n : NodeId} (he : g.removeNode n = .ok g') : Lacks t k g' := by
  unfold removeNode at he
  split at he
  · cases he
    rw [lacks_iff] at h ⊢
    intro b hb
    simp only [Dict.find_del] at hb
    split at hb
    · cases hb
    · exact h b hb
  · cases he

theorem lacks_removeSelf {g g' : DG} (he : g.removeNode t = .ok g') : Lacks t k g' := by
  unfold removeNode at he
  split at he
  · cases he
    rw [lacks_iff]
    intro b hb
    simp only [Dict.find_del, if_pos] at hb
    cases hb
  · cases he

theorem lacks_relabelOne (hk : k ≠ "layers") {g : DG} {old new : NodeId} (h : (Lacks t k g ∧ new ≠ t) ∨ old = t) (hok : (g.relabelOne old new).2 = none) : Lacks t k (g.relabelOne old new).1 := by
  unfold relabelOne at hok ⊢
  split at hok <;> first | (simp at hok; done) | skip
  rename_i a ha
  split at hok <;> first | (simp at hok; done) | skip
  rename_i layers hla
  split at hok <;> first | (simp at hok; done) | skip
  rename_i g1 hg1
  split at hok <;> first | (simp at hok; done) | skip
  rename_i g2 hg2
  refine lacks_addEdgesFrom hk ?_ _ _ _
  rcases h with ⟨h, hne⟩ | rfl
  · exact lacks_removeNode (lacks_addNode h hne hg1) hg2
  · exact lacks_removeSelf hg2

theorem lacks_relabelLoop (hk : k ≠ "layers") (m : Dict NodeId NodeId) (hm : ∀ o, find m o = some t → o = t) : ∀ (order : List NodeId) (g : DG),
    (Lacks t k g ∨ (t ∈ order ∧ ∃ n, find m t = some n)) → order.Nodup → (relabelLoop m g order).2 = none → Lacks t k (relabelLoop m g order).1 := by
  have hlack : ∀ (order : List NodeId) (g : DG), Lacks t k g → t ∉ order → (relabelLoop m g order).2 = none → Lacks t k (relabelLoop m g order).1 := by
    intro order
    induction order with
    | nil => intro g h _ _; exact h
    | cons o order ih =>
      intro g h hto hok
      simp only [List.mem_cons, not_or] at hto
      unfold relabelLoop at hok ⊢
      cases hf : find m o with
      | none => simp only [hf] at hok ⊢; exact ih g h hto.2 hok
      | some n =>
        simp only [hf] at hok ⊢
        have hnt : n ≠ t := by rintro rfl; exact hto.1 (hm o hf).symm
        split at hok
        · rename_i g' hg'
          have h1 := lacks_relabelOne (g := g) (old := o) (new := n) hk (Or.inl ⟨h, hnt⟩) (by rw [hg'])
          rw [hg'] at h1
          exact ih g' h1 hto.2 hok
        · simp at hok
  intro order
  induction order with
  | nil => intro g h _ _; rcases h with h | ⟨h, _⟩; exacts [h, absurd h (by simp)]
  | cons o order ih =>
    intro g h nd hok
    rw [List.nodup_cons] at nd
    by_cases hot : o = t
    · subst hot
      cases hf : find m o with
      | none =>
        rcases h with h | ⟨_, n, hn⟩
        · unfold relabelLoop at hok ⊢
          simp only [hf] at hok ⊢
          exact hlack order g h nd.1 hok
        · rw [hf] at hn; cases hn
      | some n =>
        unfold relabelLoop at hok ⊢
        simp only [hf] at hok ⊢
        split at hok
        · rename_i g' hg'
          have h1 := lacks_relabelOne (g := g) (old := o) (new := n) (t := o) (k := k) hk (Or.inr rfl) (by rw [hg'])
          rw [hg'] at h1
          exact hlack order g' h1 nd.1 hok
        · simp at hok
    · unfold relabelLoop at hok ⊢
      have hrest : ∀ g', Lacks t k g' ∨ (t ∈ o :: order ∧ ∃ n, find m t = some n) → Lacks t k g' ∨ (t ∈ order ∧ ∃ n, find m t = some n) := by
        rintro g' (h | ⟨h1, h2⟩)
        · exact Or.inl h
        · rcases List.mem_cons.1 h1 with h1 | h1
          · exact absurd h1.symm hot
          · exact Or.inr ⟨h1, h2⟩
      cases hf : find m o with
      | none => simp only [hf] at hok ⊢; exact ih g (hrest g h) nd.2 hok
      | some n =>
        simp only [hf] at hok ⊢
        have hnt : n ≠ t := by rintro rfl; exact hot (hm o hf)
        split at hok
        · rename_i g' hg'
          refine ih g' (hrest g' ?_) nd.2 hok
          rcases h with h | h
          · left
            have h1 := lacks_relabelOne (g := g) (old := o) (new := n) hk (Or.inl ⟨h, hnt⟩) (by rw [hg'])
            rw [hg'] at h1; exact h1
          · exact Or.inr h
        · simp at hok

/-- **C66 is violated**: a token whose ID contains no colon (as in Tiger documents), or is an int, makes every export fail: relabelling it to the same ID drops its attributes. -/
theorem c66_fails_for_ids_without_colon (g : DG) (hr : Reachable g) (t : NodeId) (ht : t ∈ g.tokens) (hn : g.HasNode t) (hx : ensureXpointer t = t)
    (hother : ∀ n, g.HasNode n → ensureXpointer n = t → n = t) (corpus : String) (snp : Bool) (order : Option (List NodeId)) (ho : RelabelOrder g.xpointerMap order) :
    ∀ files, g.paulaDocument corpus snp order ≠ .ok files := by
  intro files hok
  have hnd := hr.inv.wf.nodesNodup
  have hf : find g.xpointerMap t = some t := by rw [find_xpointerMap hnd hn, hx]
  have hkey : t ∈ keys g.xpointerMap := (mem_keys_iff _ _).2 ⟨_, hf⟩
  have hval : t ∈ vals g.xpointerMap := List.mem_map_of_mem (f := Prod.snd) (find_some_mem hf)
  unfold RelabelOrder at ho
  rw [if_pos ⟨t, hkey, hval⟩] at ho
  cases order with
  | none =>
    simp only [paulaDocument, paulaGraph, relabelInplace, bind, Except.bind] at hok
    cases hok
  | some l =>
    obtain ⟨h1, h2, _⟩ := ho
    cases hl : relabelLoop g.xpointerMap g l with
    | mk h e =>
      cases e with
      | some e =>
        have hl' : relabelInplace g (List.map (fun n => (n, ensureXpointer n)) (keys g.nodes)) (some l) = (h, some e) := hl
        simp only [paulaDocument, paulaGraph, hl', bind, Except.bind] at hok
        cases hok
      | none =>
        have hl' : relabelInplace g (List.map (fun n => (n, ensureXpointer n)) (keys g.nodes)) (some l) = (h, none) := hl
        simp only [paulaDocument, paulaGraph, hl', bind, Except.bind] at hok
        cases hm : mapE (paulaMapped (List.map (fun n => (n, ensureXpointer n)) (keys g.nodes))) g.tokens with
        | error e => simp only [hm] at hok; cases hok
        | ok ts =>
          simp only [hm] at hok
          have htt : t ∈ ts := by
            obtain ⟨t', ht', he⟩ := forall₂_mem_left (mapE_ok.1 hm) ht
            have hf' : find (List.map (fun n => (n, ensureXpointer n)) (keys g.nodes)) t = some t := hf
            unfold paulaMapped at he
            rw [hf'] at he
            injection he with he
            rw [he]; exact ht'
          have hlk : ∀ k, k ≠ "layers" → Lacks t k h := by
            intro k hk
            have := lacks_relabelLoop (t := t) hk g.xpointerMap (fun o ho => by
              obtain ⟨a1, a2⟩ := find_xpointerMap_some ho
              exact hother o a1 a2.symm) l g (Or.inr ⟨(h2 t).2 (Or.inl hkey), t, hf⟩) h1 (by rw [hl])
            rw [hl] at this; exact this
          cases hts : paulaText { h with tokens := ts } with
          | error e => simp only [hts] at hok; cases hok
          | ok body =>
            cases hs : tokenStrings { h with tokens := ts } ts with
            | error e =>
              simp only [paulaText, getText, tokens2text, hs, bind, Except.bind] at hts
              cases hts
            | ok ss =>
              obtain ⟨s, _, hs'⟩ := forall₂_mem_left (tokenStrings_ok.1 hs) htt
              have := hlk (qual h.ns "token") (qual_ne_plain (by decide))
              unfold Lacks at this
              unfold TokenStr at hs'
              change h.nodeAttr t (qual h.ns "token") = some _ at hs'
              rw [this] at hs'
              cases hs'

/-- tokens with IDs as in Tiger documents -/
def paulaNoColon : DG := (init "d" "x" none).run [.addNode (.str "s1_1") (.atom .none) .none [("x:token", .atom (.str "Das"))], .setTokens [.str "s1_1"]]

example : Reachable paulaNoColon ∧ .str "s1_1" ∈ paulaNoColon.tokens ∧ paulaNoColon.HasNode (.str "s1_1") ∧ ensureXpointer (.str "s1_1") = .str "s1_1" ∧
    (∀ n, paulaNoColon.HasNode n → ensureXpointer n = .str "s1_1" → n = .str "s1_1") ∧ paulaNoColon.HasTokens ["Das"] := by
  refine ⟨⟨"d", "x", none, _, by decide, rfl⟩, by decide, by decide, by decide, (by
    intro n hn
    have : keys paulaNoColon.nodes = [.str "x:root_node", .str "s1_1"] := by decide
    unfold HasNode at hn
    rw [this] at hn
    simp only [List.mem_cons, List.not_mem_nil, or_false] at hn
    rcases hn with rfl | rfl <;> decide), ?_⟩
  have : paulaNoColon.tokens = [.str "s1_1"] := by decide
  unfold HasTokens
  rw [this]
  exact .cons (by unfold TokenStr; decide) .nil

/-! #### values that are no strings -/

/-- **C66 (strings only)**.  An export that succeeds has only met strings: if a token has an attribute that is to be exported with another value (e.g. the offsets stored by `add_offsets`), the export fails. -/
theorem c66_fails_for_other_values (g h : DG) (corpus : String) (snp : Bool) (order : Option (List NodeId)) (layers : List Atom) (hg : g.paulaGraph order = .ok h) (hl : g.getTopLevelLayers = .ok layers)
    (l : String) (hlm : .str l ∈ layers) (t : NodeId) (ht : t ∈ h.tokens) (a : Attrs) (ha : h.nodeAttrs t = some a) (k : String) (v : Val) (hv : find a k = some v) (hpre : l.toList <+: k.toList)
    (hk : k ∉ ["layers", "label", "metadata", "tokens", "tiger:id", "tiger:art_id", "tiger:orig_id", "tiger:token", "tiger:word"]) (hstr : ∀ s, v ≠ .atom (.str s)) :
    ∀ files, g.paulaDocument corpus snp order ≠ .ok files := by
  intro files hok
  have hfail : ∀ name files fs, h.paulaLayer snp corpus name files l ≠ .ok fs := by
    intro name files fs hc
    simp only [paulaLayer, bind, Except.bind] at hc
    cases hta : h.paulaTokAnno corpus name l with
    | error e => simp only [hta] at hc; cases hc
    | ok body =>
      unfold paulaTokAnno at hta
      cases hm : mapE (fun t => (do
          let a ← h.paulaNode t
          let fs ← paulaFeats (fun k => decide (k ∉ ignoredTokenAttribs ∧ l.toList <+: k.toList)) a
          .ok ("#" ++ t.text, fs) : Except PyErr (String × List (String × String)))) h.tokens with
      | error e => rw [hm] at hta; cases hta
      | ok items =>
        obtain ⟨x, _, hx⟩ := forall₂_mem_left (mapE_ok.1 hm) ht
        have ha' : find h.nodes t = some a := ha
        simp only [paulaNode, ha', except_bind_ok] at hx
        cases hp : paulaFeats (fun k => decide (k ∉ ignoredTokenAttribs ∧ l.toList <+: k.toList)) a with
        | error e => simp only [hp, bind, Except.bind] at hx; cases hx
        | ok fs =>
          unfold paulaFeats at hp
          obtain ⟨y, _, hy⟩ := forall₂_mem_left (mapE_ok.1 hp) (a := (k, v)) (by
            rw [List.mem_filter]
            refine ⟨find_some_mem hv, ?_⟩
            simp only [decide_eq_true_eq]
            exact ⟨by simpa [ignoredTokenAttribs, ignoredNodeAttribs] using hk, hpre⟩)
          unfold lxmlValue at hy
          split at hy
          · rename_i s heq; exact hstr s heq
          · simp only [bind, Except.bind] at hy; cases hy
          · simp only [bind, Except.bind] at hy; cases hy
  unfold paulaDocument at hok
  dsimp only at hok
  rw [hg, except_bind_ok] at hok
  cases h1 : h.paulaText with
  | error e => simp only [h1, bind, Except.bind] at hok; cases hok
  | ok tx =>
    cases h2 : h.paulaTok corpus (paulaName g.name) with
    | error e => simp only [h1, h2, bind, Except.bind] at hok; cases hok
    | ok tk =>
      cases h3 : mapE paulaLayerName layers with
      | error e => simp only [h1, h2, hl, h3, bind, Except.bind] at hok; cases hok
      | ok ls =>
        have hmem : l ∈ ls := by
          obtain ⟨y, hy, he⟩ := forall₂_mem_left (mapE_ok.1 h3) hlm
          cases he; exact hy
        have hnone : ∀ (ls : List String) fs, l ∈ ls → ∀ r, ls.foldlM (h.paulaLayer snp corpus (paulaName g.name)) fs ≠ .ok r := by
          intro ls
          induction ls with
          | nil => intro fs hm; cases hm
          | cons x ls ih =>
            intro fs hm r hr
            rw [List.foldlM_cons] at hr
            cases hx : h.paulaLayer snp corpus (paulaName g.name) fs x with
            | error e => simp only [hx, bind, Except.bind] at hr; cases hr
            | ok fs' =>
              rcases List.mem_cons.1 hm with rfl | hm
              · exact hfail _ _ _ hx
              · rw [hx, except_bind_ok] at hr; exact ih fs' hm r hr
        cases h4 : ls.foldlM (h.paulaLayer snp corpus (paulaName g.name))
            [(paulaDocId corpus (paulaName g.name) "text", (tx, "paula_text.dtd")), (paulaDocId corpus (paulaName g.name) "tok", (tk, "paula_mark.dtd"))] with
        | error e => simp only [h1, h2, hl, h3, h4, bind, Except.bind] at hok; cases hok
        | ok r => exact hnone _ _ hmem r h4

/-- the offsets of a token -/
def paulaOffsets : DG := (init "d" "x" none).run [.addNode (.str "x:t1") (.atom .none) .none [("x:token", .atom (.str "Das"))], .setTokens [.str "x:t1"], .addOffsets none]

example : (paulaOffsets.nodeAttr (.str "x:t1") "x:onset") = some (.atom (.int 0)) ∧ (paulaOffsets.paulaDocument "c" true (some [.str "x:t1", .str "x:root_node"])).isOk = false := by decide +kernel

/-- **C66 is violated**: two nodes whose IDs differ only in ':' and '_' become one. -/
theorem c66_fails_for_colliding_ids :
    let g := (init "d" "x" none).run [.addNode (.str "x:a:1") (.atom .none) .none [("cat", .atom (.str "NP"))], .addNode (.str "x:a_1") (.atom .none) .none [("cat", .atom (.str "VP"))]]
    g.HasNode (.str "x:a:1") ∧ g.HasNode (.str "x:a_1") ∧
    bodyOf (g.paulaDocument "c" true (some [.str "x:a:1", .str "x:a_1", .str "x:root_node"])) "x.c.d_x_struct" = some (.feats "x.c.d_x.xml" [("#x_a_1", [("cat", "VP")]), ("#x_root_node", [])]) := by
  decide +kernel

/-- **C66 is violated**: of several dominance edges between two nodes only one is exported. -/
theorem c66_fails_for_parallel_edges :
    let g := (init "d" "x" none).run [.addEdge (.str "x:a") (.str "x:b") (.atom .none) none .none [("edge_type", .atom (.str "dominates")), ("func", .atom (.str "SB"))],
      .addEdge (.str "x:a") (.str "x:b") (.atom .none) none .none [("edge_type", .atom (.str "dominates")), ("func", .atom (.str "OA"))]]
    (g.edges.length = 2) ∧ bodyOf (g.paulaDocument "c" true (some [.str "x:a", .str "x:b", .str "x:root_node"])) "x.c.d_x_rel" =
      some (.feats "x.c.d_x.xml" [("#rel_x_a_x_b", [("edge_type", "dominates"), ("func", "OA")])]) := by
  decide +kernel

/-- **C66 is violated**: the IDs of relations are ambiguous, two different edges can have the same one. -/
theorem c66_fails_for_ambiguous_rel_ids : (.str "x:1" : NodeId) ≠ .str "x:1_x:2" ∧
    relName (ensureXpointer (.str "x:1")) (ensureXpointer (.str "x:2_x:3")) = relName (ensureXpointer (.str "x:1_x:2")) (ensureXpointer (.str "x:3")) := by decide +kernel

/-- **C66 is violated**: a dominated node that is neither a token nor has edges of its own is referred to, but there is no element with its ID. -/
theorem c66_fails_for_empty_nodes :
    let g := (init "d" "x" none).run [.addEdge (.str "x:a") (.str "x:b") (.atom .none) none .none [("edge_type", .atom (.str "dominates"))]]
    bodyOf (g.paulaDocument "c" true (some [.str "x:a", .str "x:b", .str "x:root_node"])) "x.c.d_x" = some (.structs "x" [("x_a", [("rel_x_a_x_b", "dominates", "#x_b")])]) := by
  decide +kernel

/-- **C66 is violated**: edges (and nodes) that are only in a sublayer are in none of the files. -/
theorem c66_fails_for_sublayers :
    let g := (init "d" "x" none).run [.addEdge (.str "x:a") (.str "x:b") (.set [.str "y:z"]) none .none [("edge_type", .atom (.str "points_to"))]]
    let r := g.paulaDocument "c" true (some [.str "x:a", .str "x:b", .str "x:root_node"])
    bodyOf r "x.c.d_x_pointing" = some (.rels []) ∧ bodyOf r "y.c.d_y_pointing" = some (.rels []) := by
  decide +kernel

/-- **C66 is violated**: the attributes of a layer are recognised by their first characters, without the colon: layer "rs" also exports the attributes of layer "rst". -/
theorem c66_fails_for_layer_prefixes :
    let g := (init "d" "rs" none).run [.addNode (.str "rs:t1") (.atom .none) .none [("rs:token", .atom (.str "Das")), ("rst:role", .atom (.str "N"))], .setTokens [.str "rs:t1"]]
    bodyOf (g.paulaDocument "c" true (some [.str "rs:t1", .str "rs:root_node"])) "rs.c.d.tok_multiFeat" = some (.feats "c.d.tok.xml" [("#rs_t1", [("rs:token", "Das"), ("rst:role", "N")])]) := by
  decide +kernel

/-- **C66 is violated**: everything after the first dot of the document name is cut off, not only the file extension: different documents get the same name. -/
theorem c66_fails_for_names_with_dots : paulaName "maz.1.xml" = paulaName "maz.2.xml" := by decide +kernel

end DG
end Dg
