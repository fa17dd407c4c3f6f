/-
Heap model of the layer sets: which Python *objects* nodes and edges hold, so that the effect of sharing a set or an
attribute dict between calls is visible.  Only the `layers` entries are modelled.
-/
import Verif.Model.Py

namespace Dg

/-- Object store: `sets[i]` is the content of set object `i`; `dicts[i]` is the `layers` entry (a set address, if any) of attribute
dict object `i`.  `nodes` maps a node to its attribute dict object (`self.node[n]`), `edges` an edge to the set object stored
under `'layers'` in its (always private) data dict. -/
structure Heap where
  ns : String
  sets : List (List Atom)
  dicts : List (Option Nat)
  nodes : Dict NodeId Nat
  edges : Dict (NodeId × NodeId × Key) Nat
  deriving DecidableEq, Repr

namespace Heap

/-- evaluate a set display: a new set object -/
def newSet (h : Heap) (xs : List Atom) : Heap × Nat :=
  ({ h with sets := h.sets ++ [xs] }, h.sets.length)

/-- evaluate a dict display without a `layers` entry: a new dict object -/
def newDict (h : Heap) : Heap × Nat :=
  ({ h with dicts := h.dicts ++ [none] }, h.dicts.length)

/-- `if not layers: layers = {self.ns}` (discoursegraph.py:242-243, 439-440): `None` or an empty set. -/
def layersArg (h : Heap) : Option Nat → Heap × Nat
  | none => h.newSet [.str h.ns]
  | some s => if (h.sets.getD s []).isEmpty then h.newSet [.str h.ns] else (h, s)

/-- the attribute dict used by add_node (discoursegraph.py:248-257): the caller's `attr_dict` object if given, else the keyword dict
(a new object); its `layers` entry is set to the given set object. -/
def attrDict (h : Heap) (s : Nat) : Option Nat → Heap × Nat
  | none => ({ h with dicts := h.dicts ++ [some s] }, h.dicts.length)
  | some d => ({ h with dicts := h.dicts.set d (some s) }, d)

/-- the layers of a dict object -/
def dictLayers (h : Heap) (d : Nat) : Option (List Atom) := (h.dicts.getD d none).map (fun s => h.sets.getD s [])

/-- `add_node(n, layers, attr_dict)` restricted to layers, discoursegraph.py:242-273.  A new node keeps the dict object and through it
the caller's set object; an existing one gets a new union set. -/
def addNode (h : Heap) (n : NodeId) (layers : Option Nat) (ad : Option Nat) : Heap :=
  let (h1, s) := h.layersArg layers
  let (h2, d) := h1.attrDict s ad
  match Dict.find h2.nodes n with
  | none => { h2 with nodes := Dict.put h2.nodes n d }
  | some dn =>
    let all := setUnion ((h2.dictLayers dn).getD []) (h2.sets.getD s [])
    let (h3, s3) := h2.newSet all
    { h3 with dicts := h3.dicts.set dn (some s3) }

/-- `if node not in self.nodes_iter(): self.add_node(node, layers={self.ns})` (discoursegraph.py:457-459) -/
def ensureNode (h : Heap) (n : NodeId) : Heap :=
  if Dict.has h.nodes n then h else h.addNode n none none

/-- an edge from `u` to `v` exists -/
def hasPair (h : Heap) (u v : NodeId) : Bool := h.edges.any (fun p => p.1.1 = u && p.1.2.1 = v)

/-- `add_edge(u, v, layers, key=k)` restricted to layers, discoursegraph.py:439-485; `k` is the key chosen by the caller or by the
search for a free key.  The first edge between two nodes keeps the caller's set object, all others get a
new union set. -/
def addEdge (h : Heap) (u v : NodeId) (k : Key) (layers : Option Nat) : Heap :=
  let (h1, s) := h.layersArg layers
  let h2 := (h1.ensureNode u).ensureNode v
  if h2.hasPair u v then
    let old := (Dict.find h2.edges (u, v, k)).map (fun e => h2.sets.getD e [])
    let (h3, s3) := h2.newSet (setUnion (old.getD []) (h2.sets.getD s []))
    { h3 with edges := Dict.put h3.edges (u, v, k) s3 }
  else { h2 with edges := Dict.put h2.edges (u, v, k) s }

/-- `existing_layers.add(layer)`: mutate set object `s`. -/
def mutate (h : Heap) (s : Nat) (l : String) : Heap :=
  { h with sets := h.sets.set s (setAdd (h.sets.getD s []) (.str l)) }

/-- `add_layer(n, l)`, discoursegraph.py:637-640 -/
def addLayerNode (h : Heap) (n : NodeId) (l : String) : Heap :=
  match (Dict.find h.nodes n).bind (fun d => h.dicts.getD d none) with
  | none => h
  | some s => h.mutate s l

/-- `add_layer((u, v), l)`, discoursegraph.py:626-636 -/
def addLayerEdge (h : Heap) (u v : NodeId) (l : String) : Heap :=
  ((h.edges.filter (fun p => p.1.1 = u && p.1.2.1 = v)).map Prod.snd).foldl (fun h s => h.mutate s l) h

/-- the layers of a node as seen by the client -/
def nodeLayers (h : Heap) (n : NodeId) : Option (List Atom) :=
  (Dict.find h.nodes n).bind (fun d => h.dictLayers d)

/-- the layers of an edge as seen by the client -/
def edgeLayers (h : Heap) (u v : NodeId) (k : Key) : Option (List Atom) :=
  (Dict.find h.edges (u, v, k)).map (fun s => h.sets.getD s [])

/-- a freshly constructed graph (discoursegraph.py:74-96) -/
def init (ns : String) (root : NodeId) : Heap :=
  ({ ns := ns, sets := [], dicts := [], nodes := [], edges := [] } : Heap).addNode root none none

/-- Client calls with object identities. -/
inductive Op
  | newSet (xs : List Atom)
  | newDict
  | addNode (n : NodeId) (layers : Option Nat) (ad : Option Nat)
  | addEdge (u v : NodeId) (k : Key) (layers : Option Nat)
  | addLayerNode (n : NodeId) (l : String)
  | addLayerEdge (u v : NodeId) (l : String)
  deriving DecidableEq, Repr

@[inherit_doc Op] def step (h : Heap) : Op → Heap
  | .newSet xs => (h.newSet xs).1
  | .newDict => h.newDict.1
  | .addNode n s d => h.addNode n s d
  | .addEdge u v k s => h.addEdge u v k s
  | .addLayerNode n l => h.addLayerNode n l
  | .addLayerEdge u v l => h.addLayerEdge u v l

end Heap
end Dg
