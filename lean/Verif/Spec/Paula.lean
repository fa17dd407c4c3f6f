/-
What a PAULA document says about a graph (C66).
-/
import Verif.Spec.Offsets
import Verif.Spec.Rename
import Verif.Model.Paula

namespace Dg
open Dict (find keys)

/-- the ID of a file that describes the whole document -/
def docFile (corpus name kind : String) : String := corpus ++ ("." ++ (name ++ kind))

/-- the ID of a file of one layer -/
def layerFile (corpus name layer kind : String) : String := layer ++ ("." ++ (corpus ++ ("." ++ (name ++ kind))))

/-- the ID of the file with the hierarchical structure of a layer -/
def hierarchyFile (corpus name layer : String) : String := layerFile corpus name layer ("_" ++ layer)

/-- the ID of the `<rel>` element for the edges from `u` to `v` -/
def relName (u v : NodeId) : String := "rel_" ++ (u.text ++ ("_" ++ v.text))

/-- an attribute dict is exported as these features: each attribute that is not excluded once, with its value -/
def FeatsOf (wanted : String → Prop) (a : Attrs) (fs : List (String × String)) : Prop :=
  (fs.map Prod.fst).Nodup ∧ ∀ k v, (k, v) ∈ fs ↔ wanted k ∧ find a k = some (.atom (.str v))

/-- edges, grouped by source and target: one entry for each node with outgoing edges, in it one entry for each target, holding the attributes of
one of the edges between the two -/
structure Grouped (E : NodeId → NodeId → Attrs → Prop) (d : List (NodeId × List (NodeId × Attrs))) : Prop where
  sources : (d.map Prod.fst).Nodup
  targets : ∀ p ∈ d, p.2 ≠ [] ∧ (p.2.map Prod.fst).Nodup
  edges : ∀ p ∈ d, ∀ q ∈ p.2, E p.1 q.1 q.2
  all : ∀ u v a, E u v a → ∃ p ∈ d, p.1 = u ∧ ∃ q ∈ p.2, q.1 = v

/-- the list of the pairs (source, (target, attributes)) -/
def edgePairs (d : List (NodeId × List (NodeId × Attrs))) : List (NodeId × NodeId × Attrs) := d.flatMap (fun p => p.2.map (fun q => (p.1, q)))

namespace DG

/-- an edge of a layer of a type -/
def TypedEdge (g : DG) (layer typ : String) (u v : NodeId) (a : Attrs) : Prop :=
  ∃ k, g.edgeAttrs u v k = some a ∧ AttrsLayer a (.str layer) ∧ find a "edge_type" = some (.atom (.str typ))

/-- edges of the hierarchical structure: dominance edges and edges that span tokens -/
def InHierarchy (g : DG) (layer : String) (u v : NodeId) (a : Attrs) : Prop :=
  g.TypedEdge layer "dominates" u v a ∨ (g.TypedEdge layer "spans" u v a ∧ g.IsToken v)

/-- the reference to a node, from any file -/
def NodeRef (g : DG) (corpus name layer : String) (n : NodeId) (href : String) : Prop :=
  (g.IsToken n ∧ href = docFile corpus name ".tok.xml#" ++ n.text) ∨ (¬ g.IsToken n ∧ href = layerFile corpus name layer ("_" ++ (layer ++ ".xml#")) ++ n.text)

/-- the files of a layer -/
structure PaulaLayerSays (g : DG) (snp : Bool) (corpus name layer : String) (files : PaulaFiles) : Prop where
  /-- token annotation: one element per token in text order, with the attributes whose names begin with the name of the layer -/
  tokenAnno : ∃ items, find files (layerFile corpus name layer ".tok_multiFeat") = some (.feats (docFile corpus name ".tok.xml") items, "paula_multiFeat.dtd") ∧
    List.Forall₂ (fun t x => x.1 = "#" ++ t.text ∧ ∃ a, g.nodeAttrs t = some a ∧
      FeatsOf (fun k => k ∉ ["layers", "label", "metadata", "tokens", "tiger:id", "tiger:art_id", "tiger:orig_id", "tiger:token", "tiger:word"] ∧ layer.toList <+: k.toList) a x.2) g.tokens items
  /-- spans: one `<mark>` per node with spanning edges, that refers to the spanned nodes, in natural order (or to the first and the last) -/
  spans : ∃ d items, find files (layerFile corpus name layer ("_" ++ (layer ++ "_seg"))) = some (.marks layer (docFile corpus name ".tok.xml") items, "paula_mark.dtd") ∧
    Grouped (g.TypedEdge layer "spans") d ∧
    List.Forall₂ (fun p x => x.1 = none ∧ ∃ ts : List NodeId, ts.Perm (p.2.map Prod.fst) ∧ ts.Pairwise (fun a b => naturalLe a b = true) ∧
      ((snp = true ∧ x.2 = pyJoin " " (ts.map (fun t => "#" ++ t.text))) ∨
       (snp = false ∧ ∃ a b : NodeId, ts.head? = some a ∧ ts.getLast? = some b ∧ x.2 = "#xpointer(id(" ++ (a.text ++ (")/range-to(id(" ++ (b.text ++ ")))")))))) d items
  /-- hierarchy: one `<struct>` per node with edges of the hierarchical structure, in it one `<rel>` per target -/
  hierarchy : ∃ d items, find files (hierarchyFile corpus name layer) = some (.structs layer items, "paula_struct.dtd") ∧
    Grouped (g.InHierarchy layer) d ∧
    List.Forall₂ (fun p x => x.1 = p.1.text ∧ List.Forall₂ (fun q r => r.1 = relName p.1 q.1 ∧ find q.2 "edge_type" = some (.atom (.str r.2.1)) ∧
      ((g.IsToken q.1 ∧ r.2.2 = docFile corpus name ".tok.xml#" ++ q.1.text) ∨ (¬ g.IsToken q.1 ∧ r.2.2 = "#" ++ q.1.text))) p.2 x.2) d items
  /-- node annotation: one element per node of the layer that is no token, with its attributes -/
  nodeAnno : ∃ ns items, find files (layerFile corpus name layer ("_" ++ (layer ++ "_struct"))) = some (.feats (layerFile corpus name layer ("_" ++ (layer ++ ".xml"))) items, "paula_multiFeat.dtd") ∧
    ns.Nodup ∧ (∀ n, n ∈ ns ↔ g.NodeLayer n (.str layer) ∧ ¬ g.IsToken n) ∧
    List.Forall₂ (fun n x => x.1 = "#" ++ n.text ∧ ∃ a, g.nodeAttrs n = some a ∧
      FeatsOf (fun k => k ∉ ["layers", "label", "metadata", "tokens", "tiger:id", "tiger:art_id", "tiger:orig_id"]) a x.2) ns items
  /-- annotation of dominance edges -/
  edgeAnno : ∃ d items, find files (layerFile corpus name layer ("_" ++ (layer ++ "_rel"))) = some (.feats (layerFile corpus name layer ("_" ++ (layer ++ ".xml"))) items, "paula_multiFeat.dtd") ∧
    Grouped (g.TypedEdge layer "dominates") d ∧
    List.Forall₂ (fun e x => x.1 = "#" ++ relName e.1 e.2.1 ∧ FeatsOf (fun k => k ∉ ["layers", "label", "tiger:idref"]) e.2.2 x.2) (edgePairs d) items
  /-- pointing relations -/
  pointing : ∃ d items, find files (layerFile corpus name layer ("_" ++ (layer ++ "_pointing"))) = some (.rels items, "paula_rel.dtd") ∧
    Grouped (g.TypedEdge layer "points_to") d ∧
    List.Forall₂ (fun e x => x.1 = relName e.1 e.2.1 ∧ g.NodeRef corpus name layer e.1 x.2.1 ∧ g.NodeRef corpus name layer e.2.1 x.2.2) (edgePairs d) items
  /-- annotation of pointing relations -/
  pointingAnno : ∃ d items, find files (layerFile corpus name layer ("_" ++ (layer ++ "_pointing_multiFeat"))) =
      some (.feats (layerFile corpus name layer ("_" ++ (layer ++ "_pointing.xml"))) items, "paula_multiFeat.dtd") ∧
    Grouped (g.TypedEdge layer "points_to") d ∧
    List.Forall₂ (fun e x => x.1 = "#" ++ relName e.1 e.2.1 ∧ FeatsOf (fun k => k ∉ ["layers", "label", "tiger:idref"]) e.2.2 x.2) (edgePairs d) items

/-- the kinds of files of a layer -/
def layerKinds (layer : String) : List String :=
  [".tok_multiFeat", "_" ++ (layer ++ "_seg"), "_" ++ layer, "_" ++ (layer ++ "_struct"), "_" ++ (layer ++ "_rel"), "_" ++ (layer ++ "_pointing"), "_" ++ (layer ++ "_pointing_multiFeat")]

/-- a PAULA document describes the graph `g` (whose tokens have the strings `strs`) with these top level layers -/
structure PaulaSays (g : DG) (snp : Bool) (corpus name : String) (strs layers : List String) (files : PaulaFiles) : Prop where
  /-- which files there are: no two have the same name -/
  names : keys files = [docFile corpus name ".text", docFile corpus name ".tok"] ++ layers.flatMap (fun l => (layerKinds l).map (layerFile corpus name l)) ++ [docFile corpus name ".anno"]
  distinct : (keys files).Nodup
  /-- the primary text: the tokens joined with blanks -/
  text : find files (docFile corpus name ".text") = some (.text (pyJoin " " strs), "paula_text.dtd")
  /-- one mark per token in text order, that refers to the characters of the token (PAULA counts from 1) -/
  tokens : ∃ items, find files (docFile corpus name ".tok") = some (.marks "tok" (docFile corpus name ".text.xml") items, "paula_mark.dtd") ∧
    items.length = strs.length ∧ g.tokens.length = strs.length ∧
    ∀ (i : Nat) (t : NodeId) (s : String), g.tokens[i]? = some t → strs[i]? = some s → ∃ onset,
      items[i]? = some (some t.text, "#xpointer(string-range(//body,''," ++ (String.ofList (decimal (onset + 1)) ++ ("," ++ (String.ofList (decimal s.toList.length) ++ "))")))) ∧
      ((pyJoin " " strs).toList.drop onset).take s.toList.length = s.toList ∧ onset = startOf strs i
  layer : ∀ l ∈ layers, g.PaulaLayerSays snp corpus name l files
  /-- the list of all other files -/
  anno : ∃ items, find files (docFile corpus name ".anno") = some (.annoset items, "paula_struct.dtd") ∧ (items.map Prod.fst).Nodup ∧
    items.map Prod.snd = (keys files).dropLast.map (fun f => f ++ ".xml")

/-- the values of all attributes that are exported are strings -/
def StringValued (g : DG) : Prop :=
  (∀ n a k v, g.nodeAttrs n = some a → find a k = some v → k ∉ ["layers", "label", "metadata", "tokens", "tiger:id", "tiger:art_id", "tiger:orig_id"] → ∃ s, v = .atom (.str s)) ∧
  (∀ u v e a k x, g.edgeAttrs u v e = some a → find a k = some x → k ∉ ["layers", "label", "tiger:idref"] → ∃ s, x = .atom (.str s))

end DG
end Dg
