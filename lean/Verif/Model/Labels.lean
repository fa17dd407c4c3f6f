/-
Model of make_labels_explicit, src/discoursegraphs/util.py:278-312.
-/
import Verif.Model.Text
import Verif.Model.Graph

namespace Dg
namespace DG

/-- `u"{0}_{1}".format(x, y)`, util.py:299, 307-308; `fmt` gives the text of a value -/
def formatTwo (fmt : Val → String) (v : Val) (s : String) : Val := .atom (.str (fmt v ++ "_" ++ s))

/-- the new attributes of a node, util.py:297-299 -/
def explicitNode (fmt : Val → String) (n : NodeId) (a : Attrs) : Attrs :=
  match Dict.find a "label" with
  | none => a
  | some v => Dict.put a "label" (formatTwo fmt v (String.ofList n.chars))

/-- `make_nodelabels_explicit(docgraph)`, util.py:295-300 -/
def makeNodelabelsExplicit (fmt : Val → String) (g : DG) : DG := { g with nodes := g.nodes.map (fun p => (p.1, explicitNode fmt p.1 p.2)) }

/-- the new label of an edge, util.py:305-311: `a` are the attributes of the edge given by `edges(data=True)`, `b` those of the (parallel) edge to be labelled -/
def explicitLabel (fmt : Val → String) (a b : Attrs) : Except PyErr Val :=
  if Dict.has b "label" then
    match Dict.find a "label", Dict.find a "edge_type" with
    | some l, some t => .ok (formatTwo fmt l (fmt t))
    | _, _ => .error .key
  else
    match Dict.find a "edge_type" with
    | some t => .ok t
    | none => .error .key

/-- the inner loop, util.py:304-311: `k` is the key of the current edge (its attribute dict is the one in the graph, so changes are seen), `ks` are the keys still to be visited -/
def explicitKeys (fmt : Val → String) (k : Key) : KeyDict → List Key → Except PyErr KeyDict
  | kd, [] => .ok kd
  | kd, k' :: ks =>
    match Dict.find kd k, Dict.find kd k' with
    | some a, some b =>
      match explicitLabel fmt a b with
      | .error e => .error e
      | .ok l => explicitKeys fmt k (Dict.put kd k' (Dict.put b "label" l)) ks
    | _, _ => .error .key

/-- the outer loop, util.py:303-311.  Simplification: an exception loses the changes made so far (the caller has no use for a half-labelled graph). -/
def explicitEdges (fmt : Val → String) : DG → List (NodeId × NodeId × Key) → Except PyErr DG
  | g, [] => .ok g
  | g, (u, v, k) :: es =>
    match (Dict.find g.adj u).bind (Dict.find · v) with
    | none => .error .key
    | some kd =>
      match explicitKeys fmt k kd (Dict.keys kd) with
      | .error e => .error e
      | .ok kd' => explicitEdges fmt (g.putKeyDict u v kd') es

/-- `make_labels_explicit(docgraph)`, util.py:278-312 -/
def makeLabelsExplicit (fmt : Val → String) (g : DG) : Except PyErr DG :=
  let g1 := g.makeNodelabelsExplicit fmt
  explicitEdges fmt g1 (g1.edges.map (fun e => (e.1, e.2.1, e.2.2.1)))

end DG
end Dg
