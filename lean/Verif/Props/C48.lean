import Verif.Props.C46
import Verif.Lemmas.NodesLayered
import Verif.Lemmas.Text
import Verif.Lemmas.Forall2

/-! C48: geoff export. -/

namespace Dg
open Dict
namespace DG

/-- the properties written for a node: as in the graph, with a list of layers instead of a set, and its (string) ID as the label unless it has one -/
structure GeoffProps (n : NodeId) (a b : Attrs) : Prop where
  layers : ∃ xs ys, find a "layers" = some (.set xs) ∧ find b "layers" = some (.list ys) ∧ ys.Nodup ∧ ∀ x, x ∈ ys ↔ x ∈ xs
  label : find b "label" = (find a "label").or (match n with | .str s => some (.atom (.str s)) | .int _ => none)
  rest : ∀ x, x ≠ "layers" → x ≠ "label" → find b x = find a x

/-- the text of a node line -/
def NodeLine (enc : Attrs → List Char) (n : NodeId) (b : Attrs) : List Char := "(".toList ++ n.chars ++ " ".toList ++ enc b ++ ")".toList

/-- the text of an edge line -/
def EdgeLine (enc : Attrs → List Char) (u v : NodeId) (b : Attrs) : List Char :=
  "(".toList ++ u.chars ++ ")-[:LINKS_TO ".toList ++ enc b ++ "]->(".toList ++ v.chars ++ ")".toList

theorem node2geoff_ne {enc : Attrs → List Char} {n : NodeId} {b : Attrs} (h : b ≠ []) : node2geoff enc n b = NodeLine enc n b := by
  unfold node2geoff NodeLine
  rw [if_neg (by simpa using h)]
  simp

theorem edge2geoff_ne {enc : Attrs → List Char} {u v : NodeId} {b : Attrs} (h : b ≠ []) : edge2geoff enc u v b "LINKS_TO".toList = EdgeLine enc u v b := by
  unfold edge2geoff EdgeLine
  rw [if_neg (by simpa using h)]
  simp

/-- replacing the value of a key by one with the same shape keeps the shape -/
theorem map_put_shape {K V W : Type} [DecidableEq K] (s : V → W) (d : Dict K V) {k : K} {v w : V} (h : find d k = some v) (hs : s w = s v) :
    (put d k w).map (fun p => (p.1, s p.2)) = d.map (fun p => (p.1, s p.2)) := by
  induction d with
  | nil => simp at h
  | cons p d ih =>
    obtain ⟨k0, v0⟩ := p
    by_cases hk : k0 = k
    · subst hk
      simp only [find_cons, if_true, Option.some.injEq] at h
      subst h
      simp [put, hs]
    · simp only [find_cons, hk, if_false] at h
      simp [put, hk, ih h]

def kdShape (kd : KeyDict) : List Key := keys kd
def nbShape (nb : Dict NodeId KeyDict) : List (NodeId × List Key) := nb.map (fun p => (p.1, kdShape p.2))
def adjShape (g : DG) : List (NodeId × List (NodeId × List Key)) := g.adj.map (fun p => (p.1, nbShape p.2))

theorem castKeys_keys (f : Val → Except PyErr Val) (kd : KeyDict) : keys (castKeys f kd).1 = keys kd := by
  induction kd with
  | nil => rfl
  | cons p kd ih =>
    obtain ⟨k, a⟩ := p
    unfold castKeys
    cases castAttrs f a with
    | error e => rfl
    | ok a' => simp only [keys, List.map_cons] at ih ⊢; rw [ih]

theorem adjShape_putKeyDict {g : DG} {u v : NodeId} {kd kd' : KeyDict} (h : (find g.adj u).bind (find · v) = some kd) (hk : keys kd' = keys kd) :
    adjShape (g.putKeyDict u v kd') = adjShape g ∧ (g.putKeyDict u v kd').nodes = g.nodes := by
  unfold putKeyDict adjShape
  cases hf : find g.adj u with
  | none => exact ⟨rfl, rfl⟩
  | some nb =>
    rw [hf] at h
    simp only [Option.bind_some] at h
    simp only
    refine ⟨map_put_shape nbShape g.adj hf ?_, trivial⟩
    exact map_put_shape kdShape nb h hk

theorem castEdges_shape (f : Val → Except PyErr Val) (es : List (NodeId × NodeId)) : ∀ g : DG, adjShape (castEdges f g es).1 = adjShape g ∧ (castEdges f g es).1.nodes = g.nodes := by
  induction es with
  | nil => intro g; exact ⟨rfl, rfl⟩
  | cons e es ih =>
    intro g
    obtain ⟨u, v⟩ := e
    unfold castEdges
    cases hf : (find g.adj u).bind (find · v) with
    | none => exact ⟨rfl, rfl⟩
    | some kd =>
      simp only
      have hk := castKeys_keys f kd
      cases hc : castKeys f kd with
      | mk kd' o =>
        rw [hc] at hk
        have hs := adjShape_putKeyDict hf hk
        cases o with
        | some e => exact hs
        | none => exact ⟨(ih _).1.trans hs.1, (ih _).2.trans hs.2⟩

theorem castNodes_shape (f : Val → Except PyErr Val) (ns : List NodeId) : ∀ g : DG, keys (castNodes f g ns).1.nodes = keys g.nodes ∧ (castNodes f g ns).1.adj = g.adj := by
  induction ns with
  | nil => intro g; exact ⟨rfl, rfl⟩
  | cons n ns ih =>
    intro g
    unfold castNodes
    cases hf : find g.nodes n with
    | none => exact ⟨rfl, rfl⟩
    | some a =>
      simp only
      cases castAttrs f a with
      | error e => exact ⟨rfl, rfl⟩
      | ok a' => exact ⟨(ih _).1.trans (keys_put_of_mem _ _ _ ((mem_keys_iff _ _).2 ⟨a, hf⟩)), (ih _).2⟩

theorem castLayers_shape (f : Val → Except PyErr Val) (g : DG) : keys (castLayers f g).1.nodes = keys g.nodes ∧ adjShape (castLayers f g).1 = adjShape g := by
  have h1 := castNodes_shape f (keys g.nodes) g
  unfold castLayers
  cases hc : castNodes f g (keys g.nodes) with
  | mk g' o =>
    rw [hc] at h1
    have hs : adjShape g' = adjShape g := by unfold adjShape; rw [h1.2]
    cases o with
    | some e => exact ⟨h1.1, hs⟩
    | none =>
      simp only
      have h2 := castEdges_shape f (g'.edges.map (fun e => (e.1, e.2.1))) g'
      exact ⟨by rw [h2.2]; exact h1.1, h2.1.trans hs⟩

/-- the ends and keys of all edges depend on the shape only -/
theorem edges_of_shape (g : DG) : g.edges.map (fun e => (e.1, e.2.1, e.2.2.1)) = (adjShape g).flatMap (fun p => p.2.flatMap (fun q => q.2.map (fun k => (p.1, q.1, k)))) := by
  unfold edges adjShape nbShape kdShape keys
  simp only [List.map_flatMap, List.flatMap_map, List.map_map]
  rfl

theorem find_shape {K V W : Type} [DecidableEq K] (s : V → W) (d : Dict K V) (k : K) : find (d.map (fun p => (p.1, s p.2))) k = (find d k).map s := find_mapVal d s k

theorem wf_of_shape {g g' : DG} (wf : WF g) (hn : keys g'.nodes = keys g.nodes) (ha : adjShape g' = adjShape g) : WF g' := by
  have hkeys : keys g'.adj = keys g.adj := by
    have := congrArg (List.map Prod.fst) ha
    unfold adjShape at this
    simpa [keys, List.map_map, Function.comp_def] using this
  have hfind : ∀ u, (find g'.adj u).map nbShape = (find g.adj u).map nbShape := by
    intro u
    rw [← find_shape nbShape g'.adj, ← find_shape nbShape g.adj]
    exact congrArg (find · u) ha
  have hkd : ∀ u v, (g'.kd? u v).map kdShape = (g.kd? u v).map kdShape := by
    intro u v
    have key : ∀ o : Option (Dict NodeId KeyDict), (o.bind (find · v)).map kdShape = (o.map nbShape).bind (find · v) := by
      intro o
      cases o with
      | none => rfl
      | some nb => exact (find_shape kdShape nb v).symm
    unfold kd?
    rw [key, key, hfind]
  have hback : ∀ u v kd, g'.kd? u v = some kd → ∃ kd0, g.kd? u v = some kd0 ∧ keys kd = keys kd0 := by
    intro u v kd h
    have := hkd u v
    rw [h] at this
    cases h0 : g.kd? u v with
    | none => rw [h0] at this; simp at this
    | some kd0 => rw [h0] at this; simp only [Option.map_some, Option.some.injEq] at this; exact ⟨kd0, rfl, this⟩
  refine ⟨by rw [hn]; exact wf.nodesNodup, by rw [hkeys, hn]; exact wf.adjKeys, ?_, ?_, ?_, ?_⟩
  · intro u nb h
    have := hfind u
    rw [h] at this
    cases h0 : find g.adj u with
    | none => rw [h0] at this; simp at this
    | some nb0 =>
      rw [h0] at this
      simp only [Option.map_some, Option.some.injEq] at this
      have hk : keys nb = keys nb0 := by
        have := congrArg (List.map Prod.fst) this
        unfold nbShape at this
        simpa [keys, List.map_map, Function.comp_def] using this
      rw [hk]; exact wf.nbrsNodup u nb0 h0
  · intro u v kd h
    obtain ⟨kd0, h0, hk⟩ := hback u v kd h
    rw [hk]; exact wf.kdNodup u v kd0 h0
  · intro u v kd h
    obtain ⟨kd0, h0, hk⟩ := hback u v kd h
    rintro rfl
    apply wf.kdNonempty u v kd0 h0
    cases kd0 with
    | nil => rfl
    | cons p r => simp [keys] at hk
  · intro u v kd h
    obtain ⟨kd0, h0, hk⟩ := hback u v kd h
    rw [hn]; exact wf.target u v kd0 h0

theorem forall₂_of_map_eq {α β γ : Type} (f : α → γ) (f' : β → γ) {l : List α} {l' : List β} (h : l'.map f' = l.map f) : List.Forall₂ (fun x y => f' y = f x) l l' := by
  induction l generalizing l' with
  | nil => cases l' <;> simp_all
  | cons x l ih =>
    cases l' with
    | nil => simp at h
    | cons y l' => simp only [List.map_cons, List.cons.injEq] at h; exact .cons h.1 (ih h.2)

theorem geoffProps_of {n : NodeId} {a b : Attrs} (h : LayersCast SetAsList a b) : GeoffProps n a (idLabel n b) := by
  obtain ⟨h1, v, w, h2, h3, xs, ys, rfl, rfl, h4, h5⟩ := h
  have hlab : find b "label" = find a "label" := h1 _ (by decide)
  cases n with
  | int i => exact ⟨⟨xs, ys, h2, h3, h4, h5⟩, by simp [idLabel, hlab], fun x hx _ => h1 x hx⟩
  | str s =>
    unfold idLabel
    by_cases hb : has b "label" = true
    · obtain ⟨v, hv⟩ := (mem_keys_iff _ _).1 ((has_iff _ _).1 hb)
      simp only [hb, if_true]
      exact ⟨⟨xs, ys, h2, h3, h4, h5⟩, by rw [hv, ← hlab, hv]; rfl, fun x hx _ => h1 x hx⟩
    · have hn : find b "label" = none := by rw [find_eq_none_iff, ← has_iff]; exact hb
      simp only [hb]
      refine ⟨⟨xs, ys, h2, ?_, h4, h5⟩, ?_, ?_⟩
      · simp [find_put, h3]
      · rw [← hlab, hn]; simp [find_put]
      · intro x hx hx2
        simp only [Bool.false_eq_true, if_false]
        rw [find_put_ne _ _ (Ne.symm hx2)]; exact h1 x hx

/-- **C48**.  For every document graph with at least one node whose nodes carry layer sets (C01), if neither node IDs nor encoded properties contain line breaks, the lines of
convert_to_geoff are: for each node (in order) one node line, then for each edge (in order, parallel edges included) one edge line from its source to its target.  The properties written
are those of the graph, with the layers as a list, and for nodes without a label their (string) ID as the label. -/
theorem c48_convert_to_geoff (enc : Attrs → List Char) (ord : List Atom → List Atom) (hord : ∀ xs, (ord xs).Perm xs) (g : DG) (hr : Reachable g) (hl : NodesLayered False g) (hne : g.nodes ≠ [])
    (henc : ∀ a, '\n' ∉ enc a) (hid : ∀ n, g.HasNode n → '\n' ∉ n.chars) :
    ∃ text nodeLines edgeLines, convertToGeoff enc ord g = .ok text ∧ splitChars '\n' text = nodeLines ++ edgeLines ∧
      List.Forall₂ (fun p line => ∃ b, GeoffProps p.1 p.2 b ∧ line = NodeLine enc p.1 b) g.nodes nodeLines ∧
      List.Forall₂ (fun e line => ∃ b, LayersCast SetAsList e.2.2.2 b ∧ line = EdgeLine enc e.1 e.2.1 b) g.edges edgeLines := by
  obtain ⟨g1, h1, h2⟩ := c46_layerset2list ord hord g hr hl
  have hsh := castLayers_shape (toListVal ord) g
  have h1' : castLayers (toListVal ord) g = (g1, none) := h1
  rw [h1'] at hsh
  have wf1 := wf_of_shape hr.inv.wf hsh.1 hsh.2
  have hnodes : List.Forall₂ (fun p q => q.1 = p.1 ∧ LayersCast SetAsList p.2 q.2) g.nodes g1.nodes := by
    refine forall₂_mem_imp (forall₂_of_map_eq Prod.fst Prod.fst hsh.1) ?_
    intro p hp q hq e
    refine ⟨e, ?_⟩
    have fp : g.nodeAttrs p.1 = some p.2 := mem_find hr.inv.wf.nodesNodup hp
    have fq : g1.nodeAttrs p.1 = some q.2 := by rw [← e]; exact mem_find wf1.nodesNodup hq
    rcases h2.nodes p.1 with ⟨n1, _⟩ | ⟨a, a', n1, n2, n3⟩
    · rw [fp] at n1; simp at n1
    · rw [fp] at n1; rw [fq] at n2
      injection n1 with n1; injection n2 with n2; subst n1 n2; exact n3
  have hedges : List.Forall₂ (fun e q => q.1 = e.1 ∧ q.2.1 = e.2.1 ∧ LayersCast SetAsList e.2.2.2 q.2.2.2) g.edges g1.edges := by
    have hmap : g1.edges.map (fun e => (e.1, e.2.1, e.2.2.1)) = g.edges.map (fun e => (e.1, e.2.1, e.2.2.1)) := by rw [edges_of_shape, edges_of_shape, hsh.2]
    refine forall₂_mem_imp (forall₂_of_map_eq _ _ hmap) ?_
    rintro ⟨u, v, k, a⟩ hp ⟨u', v', k', a'⟩ hq e
    simp only [Prod.mk.injEq] at e
    obtain ⟨rfl, rfl, rfl⟩ := e
    refine ⟨rfl, rfl, ?_⟩
    have fp := (mem_edges_iff hr.inv.wf _ _ _ _).1 hp
    have fq := (mem_edges_iff wf1 _ _ _ _).1 hq
    rcases h2.edges u' v' k' with ⟨n1, _⟩ | ⟨b, b', n1, n2, n3⟩
    · rw [fp] at n1; simp at n1
    · rw [fp] at n1; rw [fq] at n2
      injection n1 with n1; injection n2 with n2; subst n1 n2; exact n3
  have nonempty_of : ∀ {b : Attrs} {w : Val}, find b "layers" = some w → b ≠ [] := by rintro b w h rfl; simp at h
  have hN : List.Forall₂ (fun p line => ∃ b, GeoffProps p.1 p.2 b ∧ line = NodeLine enc p.1 b) g.nodes (g1.addNodeIdsAsLabels.nodes.map (fun p => node2geoff enc p.1 p.2)) := by
    unfold addNodeIdsAsLabels
    simp only [List.map_map]
    rw [List.forall₂_map_right_iff]
    refine hnodes.imp ?_
    rintro ⟨n, a⟩ ⟨n', b⟩ ⟨hn', hc⟩
    simp only at hn' hc
    subst hn'
    have hg := geoffProps_of (n := n') hc
    obtain ⟨_, _, _, h3, _⟩ := hg.layers
    exact ⟨_, hg, node2geoff_ne (nonempty_of h3)⟩
  have hE : List.Forall₂ (fun e line => ∃ b, LayersCast SetAsList e.2.2.2 b ∧ line = EdgeLine enc e.1 e.2.1 b) g.edges
      (g1.addNodeIdsAsLabels.edges.map (fun e => edge2geoff enc e.1 e.2.1 e.2.2.2 "LINKS_TO".toList)) := by
    rw [show g1.addNodeIdsAsLabels.edges = g1.edges from rfl, List.forall₂_map_right_iff]
    refine hedges.imp ?_
    rintro ⟨u, v, k, a⟩ ⟨u', v', k', b⟩ ⟨e1, e2, hc⟩
    simp only at e1 e2 hc
    subst e1 e2
    obtain ⟨_, v, w, _, h3, _⟩ := id hc
    exact ⟨b, hc, edge2geoff_ne (nonempty_of h3)⟩
  refine ⟨_, _, _, by unfold convertToGeoff; rw [h1], ?_, hN, hE⟩
  unfold graph2geoff
  rw [splitChars_join]
  · rfl
  · unfold geoffLines
    intro hnil
    have := (List.append_eq_nil_iff.1 hnil).1
    rw [this] at hN
    exact hne (List.forall₂_nil_right_iff.1 hN)
  · intro line hline
    rcases List.mem_append.1 hline with hline | hline
    · obtain ⟨p, hp, b, _, rfl⟩ := forall₂_mem_right hN hline
      have := hid p.1 ((mem_keys_iff _ _).2 ⟨p.2, mem_find hr.inv.wf.nodesNodup hp⟩)
      simp [NodeLine, this, henc]
    · obtain ⟨e, he, b, _, rfl⟩ := forall₂_mem_right hE hline
      have ends := edge_ends hr.inv.wf ((mem_edges_iff hr.inv.wf e.1 e.2.1 e.2.2.1 e.2.2.2).1 he)
      simp [EdgeLine, hid _ ends.1, hid _ ends.2, henc]

def geoffDoc : DG := (init "doc" "a" (some (.str "r"))).run
  [.addNode (.int 1) (.atom .none) .none [("label", .atom (.str "x"))], .addEdge (.str "r") (.int 1) (.atom .none) none .none [], .addEdge (.str "r") (.int 1) (.atom .none) none .none []]

example : Reachable geoffDoc ∧ NodesLayered False geoffDoc ∧ geoffDoc.nodes ≠ [] ∧ ((convertToGeoff (fun _ => "{}".toList) id geoffDoc).toOption.map (splitChars '\n')) =
    some ["(r {})".toList, "(1 {})".toList, "(r)-[:LINKS_TO {}]->(1)".toList, "(r)-[:LINKS_TO {}]->(1)".toList] := by
  refine ⟨⟨"doc", "a", some (.str "r"), _, by decide, rfl⟩, ?_, by decide, by decide +kernel⟩
  exact nodesLayered_run (inv_init _ _ _) (nodesLayered_init False _ _ _) (by decide) (by simp [Op.SafeLayers]) (fun h => h.elim)

end DG
end Dg
