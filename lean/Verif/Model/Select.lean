/-
Model of the selection functions of src/discoursegraphs/discoursegraph.py (lines 876-938, 1048-1295).
A generator is modelled by what it yields and the exception that ends the iteration, if any.
-/
import Verif.Model.Graph

namespace Dg

/-- result of exhausting a generator: yielded items, and the exception raised instead of StopIteration -/
abbrev Gen (α : Type) := List α × Option PyErr

namespace Gen
variable {α β : Type}

/-- `for x in xs: <evaluate f x; maybe yield>`: stops at the first exception. -/
def collect (f : α → Except PyErr (Option β)) : List α → Gen β
  | [] => ([], none)
  | x :: xs =>
    match f x with
    | .error e => ([], some e)
    | .ok none => collect f xs
    | .ok (some y) => (y :: (collect f xs).1, (collect f xs).2)

/-- `itertools.chain(*gens)` -/
def chain : List (Gen α) → Gen α
  | [] => ([], none)
  | (ys, some e) :: _ => (ys, some e)
  | (ys, none) :: gs => (ys ++ (chain gs).1, (chain gs).2)

/-- applying a function to the yielded items -/
def map (f : α → β) (g : Gen α) : Gen β := (g.1.map f, g.2)
end Gen

/-- A `str`-or-collection filter argument (`layer`, `value`). -/
inductive Filter
  | any                     -- None
  | one (s : String)        -- a str / unicode
  | many (xs : List String) -- a list / set / dict of strings
  deriving DecidableEq, Repr

/-- `needle in hay` for strings (substring test). -/
def infixStr (needle hay : String) : Bool := decide (needle.toList <:+: hay.toList)

/-- Python's `l in v` for a string `l`. -/
def pyIn (l : String) : Val → Except PyErr Bool
  | .set xs => .ok (decide (Atom.str l ∈ xs))
  | .list xs => .ok (decide (Atom.str l ∈ xs))
  | .dict kvs => .ok (decide (l ∈ kvs.map Prod.fst))
  | .atom (.str s) => .ok (infixStr l s)
  | .atom _ => .error .type

/-- `any(l in v for l in ls)` -/
def pyAnyIn (v : Except PyErr Val) : List String → Except PyErr Bool
  | [] => .ok false
  | l :: ls => do
    let x ← v
    let b ← pyIn l x
    if b then .ok true else pyAnyIn v ls

namespace DG

/-- condition computed in the loop of select_nodes_by_layer, discoursegraph.py:1133-1138 -/
def layerCondition (layer : Filter) (attribs : Attrs) : Except PyErr Bool :=
  match layer with
  | .any => .ok true
  | .one l => do let v ← layersEntry attribs; pyIn l v
  | .many ls => pyAnyIn (layersEntry attribs) ls

/-- the final `if condition: yield ...` -/
def yieldIf {α : Type} (x : α) (c : Except PyErr Bool) : Except PyErr (Option α) := do
  let b ← c
  if b then .ok (some x) else .ok none

/-- `select_nodes_by_layer(docgraph, layer, data=True)`, discoursegraph.py:1111-1143. -/
def selectNodesByLayerData (g : DG) (layer : Filter) : Gen (NodeId × Attrs) :=
  Gen.collect (fun p => yieldIf p (layerCondition layer p.2)) g.nodes

/-- `select_nodes_by_layer(docgraph, layer, data=False)` -/
def selectNodesByLayer (g : DG) (layer : Filter) : Gen NodeId := (g.selectNodesByLayerData layer).map Prod.fst

/-- `attribs.get(attrib) == v` for a string `v` -/
def attrEqStr (attribs : Attrs) (attrib : Option String) (v : String) : Bool :=
  match attrib with
  | none => false
  | some a => decide (Dict.find attribs a = some (.atom (.str v)))

/-- `has_attrib and has_value` in select_nodes_by_attribute, discoursegraph.py:1171-1182. -/
def attributeCondition (attrib : Option String) (value : Filter) (attribs : Attrs) : Bool :=
  (match attrib with
   | none => true
   | some a => Dict.has attribs a) &&
  (match value with
   | .any => true
   | .one v => attrEqStr attribs attrib v
   | .many vs => vs.any (attrEqStr attribs attrib))

/-- `select_nodes_by_attribute(docgraph, attrib, value, data=True)`, discoursegraph.py:1146-1188. -/
def selectNodesByAttributeData (g : DG) (attrib : Option String) (value : Filter) : Gen (NodeId × Attrs) :=
  Gen.collect (fun p => yieldIf p (.ok (attributeCondition attrib value p.2))) g.nodes

/-- `select_nodes_by_attribute(docgraph, attrib, value, data=False)` -/
def selectNodesByAttribute (g : DG) (attrib : Option String) (value : Filter) : Gen NodeId :=
  (g.selectNodesByAttributeData attrib value).map Prod.fst

/-- `docgraph.node[n]['layers']` -/
def nodeLayersEntry (g : DG) (n : NodeId) : Except PyErr Val :=
  match Dict.find g.nodes n with
  | none => .error .key
  | some a => layersEntry a

/-- condition in select_neighbors_by_layer, discoursegraph.py:1071-1075: here `node_layers` is evaluated first, and `None` is not
supported (iterating over `None` is a TypeError). -/
def neighborLayerCondition (g : DG) (layer : Filter) (n : NodeId) : Except PyErr Bool := do
  let v ← g.nodeLayersEntry n
  match layer with
  | .any => .error .type
  | .one l => pyIn l v
  | .many ls => pyAnyIn (.ok v) ls

/-- `select_neighbors_by_layer(docgraph, node, layer)`, discoursegraph.py:1048-1078. -/
def selectNeighborsByLayer (g : DG) (n : NodeId) (layer : Filter) : Gen NodeId :=
  match g.neighbors n with
  | .error e => ([], some e)
  | .ok ns => Gen.collect (fun m => yieldIf m (g.neighborLayerCondition layer m)) ns

/-- condition in select_neighbors_by_edge_attribute, discoursegraph.py:1086-1102, for the list of parallel edges. -/
def edgeAttributeCondition (attrib : Option String) (value : Filter) (es : List Attrs) : Bool :=
  (match attrib with
   | none => true
   | some a => es.any (fun e => Dict.has e a)) &&
  (match value with
   | .any => true
   | .one v => es.any (fun e => attrEqStr e attrib v)
   | .many vs => es.any (fun e => vs.any (fun v => attrEqStr e attrib v)))

/-- `select_neighbors_by_edge_attribute(docgraph, source, attrib, value)`, discoursegraph.py:1081-1108. -/
def selectNeighborsByEdgeAttribute (g : DG) (n : NodeId) (attrib : Option String) (value : Filter) : Gen NodeId :=
  match g.neighbors n with
  | .error e => ([], some e)
  | .ok ns => Gen.collect (fun m => yieldIf m (.ok (edgeAttributeCondition attrib value (Dict.vals (g.keyDict n m))))) ns

/-- Printable ASCII without quote and backslash: can be spliced into a Python `'...'` literal unchanged. -/
def plainChar (c : Char) : Bool := decide (32 ≤ c.val.toNat ∧ c.val.toNat < 127) && c != '\'' && c != '\\'

/-- strings that `"'{}'".format(s)` turns into a literal denoting `s` -/
def plain (s : String) : Bool := s.toList.all plainChar

/-- The conditions select_edges evaluates with `eval`. -/
inductive Cond
  | hasKey (a : String)            -- "'{}' in edge_attribs"
  | attrIs (a v : String)          -- "edge_attribs['{0}'] == '{1}'"
  | inLayers (l : String)          -- "'{}' in edge_attribs['layers']"
  deriving DecidableEq, Repr

/-- the literals spliced into the condition -/
def Cond.lits : Cond → List String
  | .hasKey a => [a]
  | .attrIs a v => [a, v]
  | .inLayers l => [l]

/-- `eval(cond, {'edge_attribs': edge_attribs})`.  For strings that are not `plain` the real result is whatever Python the spliced text
happens to be; the model answers SyntaxError and no theorem speaks about that case. -/
def Cond.eval (c : Cond) (e : Attrs) : Except PyErr Bool :=
  if c.lits.all plain then
    match c with
    | .hasKey a => .ok (Dict.has e a)
    | .attrIs a v =>
      match Dict.find e a with
      | none => .error .key
      | some x => .ok (decide (x = .atom (.str v)))
    | .inLayers l => do let v ← layersEntry e; pyIn l v
  else .error .syntax

/-- `all(eval(cond, ...) for cond in conditions)` -/
def allConds (e : Attrs) : List Cond → Except PyErr Bool
  | [] => .ok true
  | c :: cs => do
    let b ← c.eval e
    if b then allConds e cs else .ok false

/-- `select_edges(docgraph, conditions, data)`, discoursegraph.py:1191-1201; yields (source, target, key, attributes) – Python yields
(source, target) or (source, target, attributes). -/
def selectEdges (g : DG) (conds : List Cond) : Gen (NodeId × NodeId × Key × Attrs) :=
  Gen.collect (fun e => yieldIf e (allConds e.2.2.2 conds)) g.edges

/-- `select_edges_by_attribute`, discoursegraph.py:1204-1254; an empty attrib name counts as none. -/
def selectEdgesByAttribute (g : DG) (attrib : Option String) (value : Filter) : Gen (NodeId × NodeId × Key × Attrs) :=
  match attrib with
  | none => (g.edges, none)
  | some a =>
    if a = "" then (g.edges, none)
    else match value with
      | .any => g.selectEdges [.hasKey a]
      | .one v => g.selectEdges [.hasKey a, .attrIs a v]
      | .many vs => Gen.chain (vs.map (fun v => g.selectEdges [.hasKey a, .attrIs a v]))

/-- `select_edges_by(docgraph, layer, edge_type)`, discoursegraph.py:1257-1295. -/
def selectEdgesBy (g : DG) (layer edgeType : Option String) : Gen (NodeId × NodeId × Key × Attrs) :=
  match layer, edgeType with
  | some l, some t => g.selectEdges [.attrIs "edge_type" t, .inLayers l]
  | some l, none => g.selectEdges [.inLayers l]
  | none, some t => g.selectEdges [.attrIs "edge_type" t]
  | none, none => (g.edges, none)

/-- iterating over a layers value (`for layer in x['layers']`); strings would be iterated by character (as one-character strings) -/
def iterVal : Val → Except PyErr (List Atom)
  | .set xs => .ok xs
  | .list xs => .ok xs
  | .dict kvs => .ok (kvs.map (fun p => .str p.1))
  | .atom (.str s) => .ok (s.toList.map (fun c => .str (String.singleton c)))
  | .atom _ => .error .type

/-- `for layer in attribs['layers']: all_layers.add(layer)` over all attrib dicts -/
def collectLayers : List Attrs → List Atom → Except PyErr (List Atom)
  | [], acc => .ok acc
  | a :: as, acc => do
    let v ← layersEntry a
    let ls ← iterVal v
    collectLayers as (ls.foldl setAdd acc)

/-- `get_node_annotation_layers`, discoursegraph.py:905-920 -/
def getNodeAnnotationLayers (g : DG) : Except PyErr (List Atom) := collectLayers (Dict.vals g.nodes) []

/-- `get_edge_annotation_layers`, discoursegraph.py:923-938 -/
def getEdgeAnnotationLayers (g : DG) : Except PyErr (List Atom) := collectLayers (g.edges.map (fun e => e.2.2.2)) []

/-- `get_annotation_layers`, discoursegraph.py:876-887 -/
def getAnnotationLayers (g : DG) : Except PyErr (List Atom) := do
  let ns ← g.getNodeAnnotationLayers
  let es ← g.getEdgeAnnotationLayers
  .ok (setUnion ns es)

/-- `layer.split(':')[0]` (also `layer2namespace`, discoursegraph.py:1368-1372) -/
def beforeColon (s : String) : String := String.ofList (s.toList.takeWhile (fun c => c != ':'))

/-- `layer.split(':')[0]` on a layer; AttributeError for a non-string -/
def topLevel : Atom → Except PyErr Atom
  | .str s => .ok (.str (beforeColon s))
  | _ => .error .attribute

/-- `get_top_level_layers`, discoursegraph.py:890-902 -/
def getTopLevelLayers (g : DG) : Except PyErr (List Atom) := do
  let ls ← g.getAnnotationLayers
  let ts ← ls.mapM topLevel
  .ok (ts.foldl setAdd [])

end DG
end Dg
