/-
Read-only views of a document graph used to state the properties: what a client sees through
`n in g`, `g.node[n]`, `g.edge[u][v][key]`.
-/
import Verif.Model.Graph

namespace Dg
namespace DG

/-- `n in g` -/
def HasNode (g : DG) (n : NodeId) : Prop := n ∈ Dict.keys g.nodes

/-- `g.edge[u][v]`, if present -/
def kd? (g : DG) (u v : NodeId) : Option KeyDict := (Dict.find g.adj u).bind (Dict.find · v)

/-- `g.node[n]` -/
def nodeAttrs (g : DG) (n : NodeId) : Option Attrs := Dict.find g.nodes n

/-- `g.edge[u][v][k]` -/
def edgeAttrs (g : DG) (u v : NodeId) (k : Key) : Option Attrs := (g.kd? u v).bind (Dict.find · k)

/-- `g.node[n][a]` -/
def nodeAttr (g : DG) (n : NodeId) (a : String) : Option Val := (g.nodeAttrs n).bind (Dict.find · a)

/-- `g.edge[u][v][k][a]` -/
def edgeAttr (g : DG) (u v : NodeId) (k : Key) (a : String) : Option Val :=
  (g.edgeAttrs u v k).bind (Dict.find · a)

/-- `g.has_edge(u, v, k)` -/
def HasEdge (g : DG) (u v : NodeId) (k : Key) : Prop := (g.edgeAttrs u v k).isSome

instance (g : DG) (u v : NodeId) (k : Key) : Decidable (g.HasEdge u v k) :=
  inferInstanceAs (Decidable (_ = true))
instance (g : DG) (n : NodeId) : Decidable (g.HasNode n) := inferInstanceAs (Decidable (_ ∈ _))

/-- layer `l` (any scalar) is in the `layers` set of an attribute dict -/
def AttrsLayer (a : Attrs) (l : Atom) : Prop := ∃ xs, Dict.find a "layers" = some (.set xs) ∧ l ∈ xs

/-- `l in g.node[n]['layers']` -/
def NodeLayer (g : DG) (n : NodeId) (l : Atom) : Prop := ∃ a, g.nodeAttrs n = some a ∧ AttrsLayer a l

/-- `l in g.edge[u][v][k]['layers']` -/
def EdgeLayer (g : DG) (u v : NodeId) (k : Key) (l : Atom) : Prop :=
  ∃ a, g.edgeAttrs u v k = some a ∧ AttrsLayer a l

/-- the attribute dict has a `layers` entry that is a set of strings -/
def Layered (a : Attrs) : Prop := ∃ xs, Dict.find a "layers" = some (.set xs) ∧ ∀ x ∈ xs, ∃ s, x = Atom.str s

/-- ... and the set is not empty -/
def LayeredNE (a : Attrs) : Prop :=
  ∃ xs, Dict.find a "layers" = some (.set xs) ∧ (∀ x ∈ xs, ∃ s, x = Atom.str s) ∧ xs ≠ []

/-- what the `layers` argument of add_node/add_edge means: a falsy value stands for `{ns}`; otherwise it must be
a set of strings. -/
inductive LayersArg (ns : String) : Val → List Atom → Prop
  | default {v : Val} : v.truthy = false → LayersArg ns v [.str ns]
  | given {xs : List Atom} : xs ≠ [] → (∀ x ∈ xs, ∃ s, x = Atom.str s) → LayersArg ns (.set xs) xs

/-- the attribute `k` as given by an `attr_dict` argument -/
def argFind (ad : AttrArg) (k : String) : Option Val :=
  match ad with
  | .dict d => Dict.find d k
  | _ => none

/-- the parts of a graph object that are neither nodes nor edges -/
def SameMeta (g g' : DG) : Prop :=
  g'.name = g.name ∧ g'.ns = g.ns ∧ g'.root = g.root ∧ g'.tokens = g.tokens ∧ g'.sentences = g.sentences ∧
  g'.mergedRoots = g.mergedRoots ∧ g'.renamed = g.renamed

end DG
end Dg
