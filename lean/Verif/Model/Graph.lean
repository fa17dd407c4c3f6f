/-
Model of `DiscourseDocumentGraph` (src/discoursegraphs/discoursegraph.py) and of the networkx 1.x
`MultiDiGraph` methods it inherits.
-/
import Verif.Model.Py

namespace Dg

instance : DecidableEq Attrs := inferInstanceAs (DecidableEq (List (String × Val)))

/-- Parallel edges between two nodes: edge key ↦ attributes. -/
abbrev KeyDict := Dict Key Attrs

instance : DecidableEq KeyDict := inferInstanceAs (DecidableEq (List (Key × Attrs)))
instance : DecidableEq (Dict NodeId KeyDict) := inferInstanceAs (DecidableEq (List (NodeId × KeyDict)))

/-- A document graph.  discoursegraph.py:36-96 (class and `__init__`).
`adj` is networkx' `succ`/`adj`/`edge`; `pred` is derived (`DG.inEdges`) since networkx shares the
key dictionaries between both directions.  `mergedRoots`/`renamed` are `none` while the Python
attribute `merged_rootnodes`/`renamed_nodes` does not exist (lines 696-699, 777-780). -/
structure DG where
  name : String
  ns : String
  root : NodeId
  nodes : Dict NodeId Attrs
  adj : Dict NodeId (Dict NodeId KeyDict)
  tokens : List NodeId
  sentences : List NodeId
  mergedRoots : Option (List NodeId)
  renamed : Option (Dict NodeId NodeId)
  deriving DecidableEq, Repr

/-- `'{0}:{1}'.format(ns, a)` and `ns+':'+a` -/
def qual (ns a : String) : String := ns ++ (":" ++ a)

/-- `len(x)` of an attribute value (TypeError for None, ints and other objects without a length) -/
def pyLen : Val → Except PyErr Nat
  | .atom (.str s) => .ok s.toList.length
  | .atom _ => .error .type
  | .set xs => .ok xs.length
  | .list xs => .ok xs.length
  | .dict xs => .ok xs.length

namespace DG

/-- `{self.ns}` -/
def nsLayers (g : DG) : List Atom := [.str g.ns]

/-- The pair of assertions `isinstance(layers, set)` and `all(isinstance(layer, str) ...)`
(discoursegraph.py:244-247, 331-334, 441-444, 576-580, 583-587). -/
def strSet : Val → Except PyErr (List Atom)
  | .set xs => if xs.all Atom.isStr then .ok xs else .error .assertion
  | _ => .error .assertion

/-- The `layers` checks shared by add_node/add_edge (discoursegraph.py:242-249, 439-446):
falsy → `{self.ns}`; otherwise it must be a set all of whose elements are strings. -/
def checkLayers (g : DG) (layers : Val) : Except PyErr (List Atom) :=
  if layers.truthy then strSet layers else .ok g.nsLayers

/-- `if not 'layers' in d: d['layers'] = {self.ns}` (discoursegraph.py:327-328, 572-573). -/
def defaultLayers (g : DG) (d : Attrs) : Attrs :=
  if Dict.has d "layers" then d else Dict.put d "layers" (.set g.nsLayers)

/-- `d['layers']` -/
def layersEntry (d : Attrs) : Except PyErr Val :=
  match Dict.find d "layers" with
  | none => .error .key
  | some v => .ok v

/-- Make `n` a node with exactly these attributes (`self.succ[n] = {}; self.pred[n] = {};
self.node[n] = attrs`, discoursegraph.py:261-263, 337-341, 353-360). -/
def newNode (g : DG) (n : NodeId) (attrs : Attrs) : DG :=
  { g with nodes := Dict.put g.nodes n attrs, adj := Dict.put g.adj n [] }

/-- Existing layers of a dict of attributes as a Python set, `attrs['layers']`, followed by the
attribute access `.union`/`.add`: KeyError if missing, AttributeError if not a set. -/
def layerSet (attrs : Attrs) : Except PyErr (List Atom) :=
  match Dict.find attrs "layers" with
  | none => .error .key
  | some (.set xs) => .ok xs
  | some _ => .error .attribute

/-- `datadict.get('layers', set())` followed by `.union` (discoursegraph.py:470-471, 603+609). -/
def layersOrEmpty (attrs : Attrs) : Except PyErr (List Atom) :=
  match Dict.find attrs "layers" with
  | none => .ok []
  | some (.set xs) => .ok xs
  | some _ => .error .attribute

/-- discoursegraph.py:249-257 (add_node): keyword attributes, plus `layers`, merged into `attr_dict`;
a non-dict raises AssertionError in add_node. -/
def mergeAttrArg (ad : AttrArg) (attr : Attrs) (layers : List Atom) (err : PyErr) : Except PyErr Attrs :=
  let attr' := Dict.put attr "layers" (.set layers)
  match ad with
  | .none => .ok attr'
  | .dict d => .ok (Dict.upd d attr')
  | .bad => .error err

/-- `add_node`, discoursegraph.py:192-273.  The in-place update of the caller's `attr_dict` object is
not modelled. -/
def addNode (g : DG) (n : NodeId) (layers : Val) (ad : AttrArg) (attr : Attrs) : Except PyErr DG := do
  let ls ← g.checkLayers layers
  let attrDict ← mergeAttrArg ad attr ls .assertion
  match Dict.find g.nodes n with
  | none => .ok (g.newNode n attrDict)
  | some old =>
    let existing ← layerSet old
    let all := setUnion existing ls
    let a1 := Dict.upd old (Dict.del attrDict "layers")
    .ok { g with nodes := Dict.put g.nodes n (Dict.put a1 "layers" (.set all)) }

/-- One element of the iterable passed to `add_nodes_from`: a node ID or a (node ID, dict) tuple. -/
inductive NodeItem
  | id (n : NodeId)
  | tup (n : NodeId) (d : Attrs)
  deriving DecidableEq, Repr

/-- Loop body of `add_nodes_from`, discoursegraph.py:321-362. -/
def addNodeItem (g : DG) (attr : Attrs) : NodeItem → Except PyErr DG
  | .tup n ndict0 => do
    let ndict := g.defaultLayers ndict0
    let lv ← layersEntry ndict
    let layers ← strSet lv
    match Dict.find g.nodes n with
    | none => .ok (g.newNode n (Dict.upd attr ndict))
    | some old =>
      let existing ← layerSet old
      let all := setUnion existing layers
      let a1 := Dict.upd (Dict.upd old ndict) attr
      .ok { g with nodes := Dict.put g.nodes n (Dict.put a1 "layers" (.set all)) }
  | .id n =>
    match Dict.find g.nodes n with
    | none => .ok (g.newNode n (Dict.put attr "layers" (.set g.nsLayers)))
    | some old => .ok { g with nodes := Dict.put g.nodes n (Dict.upd old attr) }

/-- `add_nodes_from`, discoursegraph.py:275-362: items before a failing one stay added. -/
def addNodesFrom (g : DG) (attr : Attrs) : List NodeItem → DG × Option PyErr
  | [] => (g, none)
  | it :: its =>
    match g.addNodeItem attr it with
    | .ok g' => g'.addNodesFrom attr its
    | .error e => (g, some e)

/-- `self.adj[u].get(v, {})` resp. `{}` if `u` is unknown. -/
def keyDict (g : DG) (u v : NodeId) : KeyDict :=
  match Dict.find g.adj u with
  | none => []
  | some nbrs => (Dict.find nbrs v).getD []

/-- `while key in keydict: key += 1` (discoursegraph.py:467-468, 600-601). `fuel` bounds the number of
iterations; `freshKey` passes enough (see `freshKey_not_mem`). -/
def freshFrom (kd : KeyDict) : Nat → Nat → Nat
  | 0, n => n
  | fuel + 1, n => if Dict.has kd (.int n) then freshFrom kd fuel (n + 1) else n

/-- `key = len(keydict); while key in keydict: key += 1`. -/
def freshKey (kd : KeyDict) : Key := .int (freshFrom kd kd.length kd.length)

/-- `self.succ[u][v] = keydict; self.pred[v][u] = keydict`. -/
def putKeyDict (g : DG) (u v : NodeId) (kd : KeyDict) : DG :=
  match Dict.find g.adj u with
  | none => g
  | some nbrs => { g with adj := Dict.put g.adj u (Dict.put nbrs v kd) }

/-- `if node not in self.nodes_iter(): self.add_node(node, layers={self.ns})`,
discoursegraph.py:457-459. -/
def ensureNode (g : DG) (n : NodeId) : DG :=
  if Dict.has g.nodes n then g
  else g.newNode n [("layers", .set g.nsLayers)]

/-- `add_edge`, discoursegraph.py:364-485. -/
def addEdge (g : DG) (u v : NodeId) (layers : Val) (key : Option Key) (ad : AttrArg) (attr : Attrs) :
    Except PyErr DG := do
  let ls ← g.checkLayers layers
  let attrDict ← mergeAttrArg ad attr ls .attribute
  let g1 := (g.ensureNode u).ensureNode v
  match (Dict.find g1.adj u).bind (Dict.find · v) with
  | some keydict =>
    let k := key.getD (freshKey keydict)
    let datadict := (Dict.find keydict k).getD []
    let existing ← layersOrEmpty datadict
    let all := setUnion existing ls
    let dd1 := Dict.put (Dict.upd datadict attrDict) "layers" (.set all)
    .ok (g1.putKeyDict u v (Dict.put keydict k dd1))
  | none =>
    let k := key.getD (.int 0)
    .ok (g1.putKeyDict u v [(k, Dict.upd [] attrDict)])

/-- One element of the `ebunch` passed to `add_edges_from`: `(u, v, d)`, `(u, v, key, d)` or a tuple
of another length. -/
inductive EdgeItem
  | e3 (u v : NodeId) (d : Attrs)
  | e4 (u v : NodeId) (k : Key) (d : Attrs)
  | badLen
  deriving DecidableEq, Repr

/-- `additional_layers = attr_dict.get('layers', {})` with its checks, discoursegraph.py:581-590, and the
implicit iteration in `layers.union(additional_layers)` (TypeError for None and 0). -/
def additionalLayers (ad : Attrs) : Except PyErr (List Atom) :=
  match Dict.find ad "layers" with
  | none => .ok []
  | some v =>
    if v.truthy then strSet v
    else match v with
      | .atom .none => .error .type
      | .atom (.int _) => .error .type
      | _ => .ok []

/-- Body of the `add_edges_from` loop for a well-formed tuple, discoursegraph.py:572-612.
`datadict.update(...)` (lines 604-605) changes the stored dict in place when the edge exists already. -/
def addEdgeItem (g : DG) (ad : Attrs) (u v : NodeId) (key : Option Key) (dd0 : Attrs) :
    DG × Option PyErr :=
  let dd := g.defaultLayers dd0
  match layersEntry dd >>= strSet with
  | .error e => (g, some e)
  | .ok layers =>
    match additionalLayers ad with
    | .error e => (g, some e)
    | .ok addl =>
      let newLayers := setUnion layers addl
      let keydict := g.keyDict u v
      let k := key.getD (freshKey keydict)
      let stored := Dict.find keydict k
      let datadict := stored.getD []
      let datadict' := Dict.upd (Dict.upd datadict ad) dd
      let g1 := if stored.isSome then g.putKeyDict u v (Dict.put keydict k datadict') else g
      match layersOrEmpty datadict with
      | .error e => (g1, some e)
      | .ok ex =>
        let all := setUnion ex newLayers
        match g1.addEdge u v (.set all) (some k) (.dict (Dict.del datadict' "layers")) [] with
        | .ok g2 => (g2, none)
        | .error e => (g1, some e)

/-- the `for e in ebunch` loop, discoursegraph.py:560-612. -/
def addEdgesLoop (ad : Attrs) : DG → List EdgeItem → DG × Option PyErr
  | g, [] => (g, none)
  | g, it :: its =>
    let r := match it with
      | .e3 u v d => g.addEdgeItem ad u v none d
      | .e4 u v k d => g.addEdgeItem ad u v (some k) d
      | .badLen => (g, some .attribute)
    match r with
    | (g', none) => addEdgesLoop ad g' its
    | (g', some e) => (g', some e)

/-- `add_edges_from`, discoursegraph.py:487-612. -/
def addEdgesFrom (g : DG) (items : List EdgeItem) (ad : AttrArg) (attr : Attrs) : DG × Option PyErr :=
  match ad with
  | .none => addEdgesLoop attr g items
  | .dict d => addEdgesLoop (Dict.upd d attr) g items
  | .bad => (g, some .attribute)

/-- First argument of `add_layer`: a node ID or a (source, target) pair. -/
inductive Elem
  | node (n : NodeId)
  | edge (u v : NodeId)
  deriving DecidableEq, Repr

/-- the loop over parallel edges in `add_layer`, discoursegraph.py:632-636. -/
def addLayerEdges (layer : String) : KeyDict → KeyDict × Option PyErr
  | [] => ([], none)
  | (k, attrs) :: rest =>
    match layerSet attrs with
    | .error e => ((k, attrs) :: rest, some e)
    | .ok xs =>
      let (rest', e) := addLayerEdges layer rest
      ((k, Dict.put attrs "layers" (.set (setAdd xs (.str layer)))) :: rest', e)

/-- `add_layer`, discoursegraph.py:614-640, for `str`/`int` node IDs and pairs of them.
Simplification: Python mutates the layer set object in place, so other elements holding the
same set object change too; see `Verif.Model.Heap` for that aspect. -/
def addLayer (g : DG) (e : Elem) (layer : Val) : DG × Option PyErr :=
  match layer with
  | .atom (.str l) =>
    match e with
    | .node n =>
      match Dict.find g.nodes n with
      | none => (g, some .key)
      | some attrs =>
        match layerSet attrs with
        | .error err => (g, some err)
        | .ok xs => ({ g with nodes := Dict.put g.nodes n (Dict.put attrs "layers" (.set (setAdd xs (.str l)))) }, none)
    | .edge u v =>
      match (Dict.find g.adj u).bind (Dict.find · v) with
      | none => (g, some .key)
      | some kd =>
        let (kd', err) := addLayerEdges l kd
        (g.putKeyDict u v kd', err)
  | _ => (g, some .assertion)

/-- networkx 1.x `MultiDiGraph.remove_node` (inherited): removes the node and all its edges;
NetworkXError if the node is unknown. -/
def removeNode (g : DG) (n : NodeId) : Except PyErr DG :=
  if Dict.has g.nodes n then
    .ok { g with
      nodes := Dict.del g.nodes n
      adj := (Dict.del g.adj n).map (fun p => (p.1, Dict.del p.2 n)) }
  else .error .networkx

/-- `EdgeTypes`, discoursegraph.py:25-33. -/
def pointingRelation : String := "points_to"
@[inherit_doc pointingRelation] def dominanceRelation : String := "dominates"
@[inherit_doc pointingRelation] def spanningRelation : String := "spans"
@[inherit_doc pointingRelation] def precedenceRelation : String := "precedes"

/-- layers argument of precedence edges, `{self.ns, self.ns+':precedence'}` (discoursegraph.py:754). -/
def precedenceLayers (g : DG) : Val := .set [.str g.ns, .str (g.ns ++ ":precedence")]

/-- one `add_edge` call of `add_precedence_relations`, discoursegraph.py:753-760. -/
def addPrecedenceEdge (g : DG) (u v : NodeId) : Except PyErr DG :=
  g.addEdge u v g.precedenceLayers none .none [("edge_type", .atom (.str precedenceRelation))]

/-- the loop over neighbouring tokens, discoursegraph.py:756-760. -/
def addPrecedenceLoop : DG → List NodeId → DG × Option PyErr
  | g, a :: b :: rest =>
    match g.addPrecedenceEdge a b with
    | .ok g' => addPrecedenceLoop g' (b :: rest)
    | .error e => (g, some e)
  | g, _ => (g, none)

/-- `add_precedence_relations`, discoursegraph.py:745-760. -/
def addPrecedenceRelations (g : DG) : DG × Option PyErr :=
  match g.tokens with
  | t0 :: t1 :: rest =>
    match g.addPrecedenceEdge g.root t0 with
    | .ok g' => addPrecedenceLoop g' (t0 :: t1 :: rest)
    | .error e => (g, some e)
  | _ => (g, some .assertion)

/-- The empty networkx graph underlying `__init__` (no root node yet). -/
def bare (name ns : String) (root : NodeId) : DG :=
  { name := name, ns := ns, root := root, nodes := [], adj := [], tokens := [], sentences := [],
    mergedRoots := none, renamed := none }

/-- `root if root else self.ns+':root_node'`, discoursegraph.py:91. -/
def defaultRoot (ns : String) : Option NodeId → NodeId
  | none => .str (ns ++ ":root_node")
  | some (.str s) => if s = "" then .str (ns ++ ":root_node") else .str s
  | some (.int i) => if i = 0 then .str (ns ++ ":root_node") else .int i

/-- `DiscourseDocumentGraph.__init__`, discoursegraph.py:74-96; the root node gets an (initially empty)
`metadata` dict. -/
def init (name ns : String) (root : Option NodeId) : DG :=
  let r := defaultRoot ns root
  let g := (bare name ns r).newNode r [("layers", .set [.str ns])]
  { g with nodes := Dict.put g.nodes r [("layers", .set [.str ns]), ("metadata", .dict [])] }

/-- `edges(data=True)` with keys, networkx 1.x `MultiDiGraph.edges_iter`: source nodes in node order. -/
def edges (g : DG) : List (NodeId × NodeId × Key × Attrs) :=
  g.adj.flatMap fun p => p.2.flatMap fun q => q.2.map fun r => (p.1, q.1, r.1, r.2)

/-- `out_edges(n, data=True)` with keys. -/
def outEdges (g : DG) (n : NodeId) : List (NodeId × NodeId × Key × Attrs) :=
  ((Dict.find g.adj n).getD []).flatMap fun q => q.2.map fun r => (n, q.1, r.1, r.2)

/-- `in_edges(n, data=True)` with keys (order unspecified in networkx). -/
def inEdges (g : DG) (n : NodeId) : List (NodeId × NodeId × Key × Attrs) :=
  g.edges.filter fun e => decide (e.2.1 = n)

/-- `neighbors_iter(n)`: NetworkXError for an unknown node. -/
def neighbors (g : DG) (n : NodeId) : Except PyErr (List NodeId) :=
  match Dict.find g.adj n with
  | none => .error .networkx
  | some nbrs => .ok (Dict.keys nbrs)

/-- `self.node[n][k]`: KeyError if the node or the attribute does not exist -/
def getAttr (g : DG) (n : NodeId) (k : String) : Except PyErr Val :=
  match Dict.find g.nodes n with
  | none => .error .key
  | some a =>
    match Dict.find a k with
    | none => .error .key
    | some v => .ok v

/-- `self.node[n][k] = v` -/
def setAttr (g : DG) (n : NodeId) (k : String) (v : Val) : Except PyErr DG :=
  match Dict.find g.nodes n with
  | none => .error .key
  | some a => .ok { g with nodes := Dict.put g.nodes n (Dict.put a k v) }

/-- `get_token(token_node_id)`, discoursegraph.py:643-660 (default `token_attrib`) -/
def getToken (g : DG) (n : NodeId) : Except PyErr Val := g.getAttr n (qual g.ns "token")

/-- the two assignments in the loop of add_offsets, discoursegraph.py:111-112 -/
def setOffsets (g : DG) (offsetNs : String) (t : NodeId) (onset offset : Nat) : Except PyErr DG := do
  let g1 ← g.setAttr t (qual offsetNs "onset") (.atom (.int onset))
  g1.setAttr t (qual offsetNs "offset") (.atom (.int offset))

/-- the loop of add_offsets, discoursegraph.py:106-113; `get_tokens` is a generator, so an exception for a later token
leaves the offsets of the earlier ones in place. -/
def addOffsetsLoop (offsetNs : String) : DG → Nat → List NodeId → DG × Option PyErr
  | g, _, [] => (g, none)
  | g, onset, t :: ts =>
    match g.getToken t >>= pyLen with
    | .error e => (g, some e)
    | .ok len =>
      match g.setOffsets offsetNs t onset (onset + len) with
      | .error e => (g, some e)
      | .ok g' => addOffsetsLoop offsetNs g' (onset + len + 1) ts

/-- `add_offsets`, discoursegraph.py:98-113; `none` = default namespace -/
def addOffsets (g : DG) (offsetNs : Option String) : DG × Option PyErr :=
  addOffsetsLoop (offsetNs.getD g.ns) g 0 g.tokens

/-- The public mutating operations a client can call on a graph. `setTokens`/`setSentences` are the assignments the readers make to
the public attributes, `setName`/`setMergedRoots`/`setRenamed` those made while merging, `setAttr` is the direct assignment `g.node[n][k] = v`. -/
inductive Op
  | addNode (n : NodeId) (layers : Val) (ad : AttrArg) (attr : Attrs)
  | addNodesFrom (items : List NodeItem) (attr : Attrs)
  | addEdge (u v : NodeId) (layers : Val) (key : Option Key) (ad : AttrArg) (attr : Attrs)
  | addEdgesFrom (items : List EdgeItem) (ad : AttrArg) (attr : Attrs)
  | addLayer (e : Elem) (layer : Val)
  | removeNode (n : NodeId)
  | addPrecedence
  | addOffsets (offsetNs : Option String)
  | setAttr (n : NodeId) (k : String) (v : Val)
  | setTokens (ts : List NodeId)
  | setSentences (ss : List NodeId)
  | setName (s : String)
  | setMergedRoots (ns : List NodeId)
  | setRenamed (m : Dict NodeId NodeId)
  deriving DecidableEq, Repr

/-- Turn a call that fails without effect into state + exception. -/
def lift (g : DG) : Except PyErr DG → DG × Option PyErr
  | .ok g' => (g', none)
  | .error e => (g, some e)

/-- One client call. -/
def step (g : DG) : Op → DG × Option PyErr
  | .addNode n l ad at' => g.lift (g.addNode n l ad at')
  | .addNodesFrom its at' => g.addNodesFrom at' its
  | .addEdge u v l k ad at' => g.lift (g.addEdge u v l k ad at')
  | .addEdgesFrom its ad at' => g.addEdgesFrom its ad at'
  | .addLayer e l => g.addLayer e l
  | .removeNode n => g.lift (g.removeNode n)
  | .addPrecedence => g.addPrecedenceRelations
  | .addOffsets ns => g.addOffsets ns
  | .setAttr n k v => g.lift (g.setAttr n k v)
  | .setTokens ts => ({ g with tokens := ts }, none)
  | .setSentences ss => ({ g with sentences := ss }, none)
  | .setName s => ({ g with name := s }, none)
  | .setMergedRoots l => ({ g with mergedRoots := some l }, none)
  | .setRenamed m => ({ g with renamed := some m }, none)

/-- A history of client calls; the client catches exceptions and carries on. -/
def run (g : DG) (ops : List Op) : DG := ops.foldl (fun g op => (g.step op).1) g

end DG
end Dg
