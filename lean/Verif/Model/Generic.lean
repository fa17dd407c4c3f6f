/-
Model of the export preparation: src/discoursegraphs/readwrite/generic.py:69-155, gexf.py, graphml.py, geoff.py, neo4j.py.
-/
import Verif.Model.Text
import Verif.Model.Graph
import Mathlib.Data.List.Dedup

namespace Dg

/-- `list(x)` of a layers value; `ord` is the (arbitrary) order in which Python iterates over a set.  Simplification: strings (iterated by character) and dicts, which
are no layers values in document graphs, are reported as TypeError. -/
def toListVal (ord : List Atom → List Atom) : Val → Except PyErr Val
  | .set xs => .ok (.list (ord xs.dedup))
  | .list xs => .ok (.list xs)
  | _ => .error .type

/-- `str(x)` of a layers value; `repr` gives the string representation of everything but strings -/
def toStrVal (repr : Val → String) : Val → Except PyErr Val
  | .atom (.str s) => .ok (.atom (.str s))
  | v => .ok (.atom (.str (repr v)))

/-- `attrs['layers'] = f(attrs['layers'])`, generic.py:79-80, 85-86, 99-100, 105-106 -/
def castAttrs (f : Val → Except PyErr Val) (a : Attrs) : Except PyErr Attrs :=
  match Dict.find a "layers" with
  | none => .error .key
  | some v => do
    let w ← f v
    .ok (Dict.put a "layers" w)

namespace DG

/-- the loop over the nodes, generic.py:78-80, 98-100 -/
def castNodes (f : Val → Except PyErr Val) : DG → List NodeId → DG × Option PyErr
  | g, [] => (g, none)
  | g, n :: ns =>
    match Dict.find g.nodes n with
    | none => (g, some .key)
    | some a =>
      match castAttrs f a with
      | .error e => (g, some e)
      | .ok a' => castNodes f { g with nodes := Dict.put g.nodes n a' } ns

/-- `for edge_id in edge_dict: ...`, generic.py:84-86, 104-106 -/
def castKeys (f : Val → Except PyErr Val) : KeyDict → KeyDict × Option PyErr
  | [] => ([], none)
  | (k, a) :: rest =>
    match castAttrs f a with
    | .error e => ((k, a) :: rest, some e)
    | .ok a' =>
      let r := castKeys f rest
      ((k, a') :: r.1, r.2)

/-- the loop over `edges_iter()`, generic.py:81-86, 101-106: a pair of nodes occurs once for each parallel edge -/
def castEdges (f : Val → Except PyErr Val) : DG → List (NodeId × NodeId) → DG × Option PyErr
  | g, [] => (g, none)
  | g, (u, v) :: es =>
    match (Dict.find g.adj u).bind (Dict.find · v) with
    | none => (g, some .key)
    | some kd =>
      match castKeys f kd with
      | (kd', some e) => (g.putKeyDict u v kd', some e)
      | (kd', none) => castEdges f (g.putKeyDict u v kd') es

/-- both loops -/
def castLayers (f : Val → Except PyErr Val) (g : DG) : DG × Option PyErr :=
  match castNodes f g (Dict.keys g.nodes) with
  | (g', some e) => (g', some e)
  | (g', none) => castEdges f g' (g'.edges.map (fun e => (e.1, e.2.1)))

/-- `layerset2list(discoursegraph)`, generic.py:69-86 -/
def layerset2list (ord : List Atom → List Atom) (g : DG) : DG × Option PyErr := castLayers (toListVal ord) g

/-- `layerset2str(discoursegraph)`, generic.py:89-106 -/
def layerset2str (repr : Val → String) (g : DG) : DG × Option PyErr := castLayers (toStrVal repr) g

/-- `if isinstance(x, list): x = str(x)`, generic.py:125-126, 132-134 -/
def listToStr (repr : Val → String) : Val → Val
  | .list xs => .atom (.str (repr (.list xs)))
  | v => v

/-- assigning to all values of a dict while iterating over its keys -/
def mapAttrs (f : Val → Val) (a : Attrs) : Attrs := a.map (fun p => (p.1, f p.2))

/-- `attriblist2str(discoursegraph)`, generic.py:109-134.  Simplification: the repeated visits of parallel edges are not modelled; they change nothing as there are no lists left. -/
def attriblist2str (repr : Val → String) (g : DG) : DG :=
  { g with nodes := g.nodes.map (fun p => (p.1, mapAttrs (listToStr repr) p.2)), adj := g.adj.map (fun p => (p.1, p.2.map (fun q => (q.1, q.2.map (fun r => (r.1, mapAttrs (listToStr repr) r.2)))))) }

/-- `self.node[n].pop('metadata', None)` if the node exists, else KeyError -/
def popMetadata (g : DG) (n : NodeId) : Except PyErr DG :=
  match Dict.find g.nodes n with
  | none => .error .key
  | some a => .ok { g with nodes := Dict.put g.nodes n (Dict.del a "metadata") }

/-- the same with `except KeyError: pass`, generic.py:146-147, 151-155 -/
def popMetadataIfNode (g : DG) (n : NodeId) : DG :=
  match g.popMetadata n with
  | .ok g' => g'
  | .error _ => g

/-- `remove_root_metadata(docgraph)`, generic.py:137-155 -/
def removeRootMetadata (g : DG) : Except PyErr DG := do
  let g1 ← g.popMetadata g.root
  let g2 := g1.popMetadataIfNode (.str "discoursegraph:root_node")
  .ok ((g2.mergedRoots.getD []).foldl popMetadataIfNode g2)

/-- the graph handed to networkx by write_gexf, gexf.py:21-24 (working on a deep copy) -/
def prepareGexf (repr : Val → String) (g : DG) : Except PyErr DG := do
  let g1 ← g.removeRootMetadata
  match g1.layerset2str repr with
  | (_, some e) => .error e
  | (g2, none) => .ok (g2.attriblist2str repr)

/-- the graph handed to networkx by write_graphml, graphml.py:17-27 (working on a deep copy) -/
def prepareGraphml (repr : Val → String) (g : DG) : Except PyErr DG :=
  match g.layerset2str repr with
  | (_, some e) => .error e
  | (g1, none) => (g1.attriblist2str repr).removeRootMetadata

/-- loop of add_node_ids_as_labels, neo4j.py:28-30 -/
def idLabel (n : NodeId) (a : Attrs) : Attrs :=
  match n with
  | .str s => if Dict.has a "label" then a else Dict.put a "label" (.atom (.str s))
  | .int _ => a

/-- `add_node_ids_as_labels(discoursegraph)`, neo4j.py:17-30 -/
def addNodeIdsAsLabels (g : DG) : DG := { g with nodes := g.nodes.map (fun p => (p.1, idLabel p.1 p.2)) }

end DG

/-- `node2geoff(node_name, properties, encoder)`, geoff.py:13-34; `enc` is the JSON encoder -/
def node2geoff (enc : Attrs → List Char) (n : NodeId) (a : Attrs) : List Char :=
  if a.isEmpty then '(' :: (n.chars ++ [')']) else '(' :: (n.chars ++ ' ' :: (enc a ++ [')']))

/-- `edge2geoff(from_node, to_node, properties, edge_relationship_name, encoder)`, geoff.py:37-67 -/
def edge2geoff (enc : Attrs → List Char) (u v : NodeId) (a : Attrs) (rel : List Char) : List Char :=
  if a.isEmpty then '(' :: (u.chars ++ (")-[:".toList ++ (rel ++ ("]->(".toList ++ (v.chars ++ [')'])))))
  else '(' :: (u.chars ++ (")-[:".toList ++ (rel ++ (' ' :: (enc a ++ ("]->(".toList ++ (v.chars ++ [')'])))))))

/-- the list `lines` of graph2geoff, geoff.py:107-116; a MultiDiGraph is a DiGraph, so edges are written in one direction only -/
def geoffLines (enc : Attrs → List Char) (g : DG) (rel : List Char) : List (List Char) :=
  g.nodes.map (fun p => node2geoff enc p.1 p.2) ++ g.edges.map (fun e => edge2geoff enc e.1 e.2.1 e.2.2.2 rel)

/-- `graph2geoff(graph, edge_rel_name, encoder)`, geoff.py:70-118 -/
def graph2geoff (enc : Attrs → List Char) (g : DG) (rel : List Char) : List Char := joinChars ['\n'] (geoffLines enc g rel)

/-- `convert_to_geoff(discoursegraph)`, neo4j.py:33-48 -/
def convertToGeoff (enc : Attrs → List Char) (ord : List Atom → List Atom) (g : DG) : Except PyErr (List Char) :=
  match g.layerset2list ord with
  | (_, some e) => .error e
  | (g1, none) => .ok (graph2geoff enc g1.addNodeIdsAsLabels "LINKS_TO".toList)

end Dg
