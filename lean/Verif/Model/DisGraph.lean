/-
Reader of .dis files into a document graph (src/discoursegraphs/readwrite/rst/dis/disgraph.py, helper functions in common.py of the same directory).
The input is the tree of the file (`DisFile.tree`).
-/
import Verif.Model.Dis
import Verif.Model.RstGraph
import Verif.Model.Tiger

namespace Dg

/-- readwrite/rst/dis/common.py:100-116 `get_node_id` (with a namespace) of a node with these children, without the namespace: the number of a leaf, or `span:a-b` -/
def disNodeName (kids : List PTree) : Except PyErr (List Char) := do
  let leaf ← disIsLeafNode kids
  let ls := (kids.head?.map PTree.leaves).getD []
  if leaf then
    match ls with
    | n :: _ => .ok n
    | [] => .error .index
  else
    match ls with
    | a :: b :: _ => .ok (['s', 'p', 'a', 'n', ':'] ++ a ++ ['-'] ++ b)
    | _ => .error .index

namespace DG

/-- readwrite/rst/dis/common.py:100-116 `get_node_id(nuc_or_sat, namespace)`; a string has no subtrees -/
def disNodeId (ns : String) : PTree → Except PyErr String
  | .node _ kids => do
    let n ← disNodeName kids
    return qual ns (String.ofList n)
  | _ => .error .attribute

/-- disgraph.py:108-113: the token number `i` of the leaf `nid` -/
def disAddToken (nid : String) (g : DG) (p : List Char × Nat) : Except PyErr DG := do
  let t : NodeId := .str (nid ++ String.ofList (['_'] ++ decimal p.2))
  let g1 := { g with tokens := g.tokens ++ [t] }
  let g2 ← g1.addNode t (.atom .none) (.dict [(qual g.ns "token", strVal p.1), ("label", strVal p.1)]) []
  g2.addEdge (.str nid) t (.atom .none) none .none []

/-- disgraph.py:101-113: a leaf with the text `text` -/
def disAddLeaf (tokenize : Bool) (nid : String) (text : List Char) (g : DG) : Except PyErr DG := do
  let g1 ← g.addNode (.str nid) (.atom .none) (.dict [(qual g.ns "text", strVal text), ("label", .atom (.str (nid ++ ": " ++ String.ofList (text.take 20))))]) []
  if tokenize then (splitWs text).zipIdx.foldlM (disAddToken nid) g1 else .ok g1

/-- the first child of a type (`children[child_types[type][0]]`) -/
def disChild (ty : DisType) (tys : List DisType) (children : List PTree) : PTree := (children[tys.idxOf ty]?).getD .none

/-- disgraph.py:118-159: the edges from a span (of the type `ty`, with the relation `rel`) to its children -/
def disSpanEdges (nid : String) (ty : DisType) (rel : List Char) (children : List PTree) (g : DG) : Except PyErr DG := do
  let tys ← disChildTypes children
  if .root ∈ tys then .error .assertion
  else if .sat ∉ tys then
    children.foldlM (fun g c => do
      let cid ← disNodeId g.ns c
      g.addEdge (.str nid) (.str cid) (.atom .none) none (.dict [(qual g.ns "rel_type", strVal rel)]) []) g
  else if tys.count .sat = 1 ∧ children.length = 1 then
    if ty = .nuc then do
      let cid ← disNodeId g.ns (children.head?.getD .none)
      g.addEdge (.str nid) (.str cid) (.atom .none) none (.dict [(qual g.ns "rel_type", strVal rel)]) [("edge_type", .atom (.str dominanceRelation))]
    else .error .notImplemented
  else if tys.count .sat = 1 ∧ tys.count .nuc = 1 then do
    let nucId ← disNodeId g.ns (disChild .nuc tys children)
    let satId ← disNodeId g.ns (disChild .sat tys children)
    let g1 ← g.addEdge (.str nid) (.str nucId) (.atom .none) none (.dict [(qual g.ns "rel_type", strVal ['s', 'p', 'a', 'n'])]) [("edge_type", .atom (.str spanningRelation))]
    g1.addEdge (.str nucId) (.str satId) (.atom .none) none (.dict [(qual g.ns "rel_type", strVal rel)]) [("edge_type", .atom (.str dominanceRelation))]
  else .error .value

/-- disgraph.py:80-85: the root node of the graph so far is replaced by that of the tree -/
def disSetRoot (rid : String) (g : DG) : Except PyErr DG := do
  let g1 ← ({ g with root := .str rid }).addNode (.str rid) (.atom .none) .none []
  g1.removeNode g.root

mutual
/-- disgraph.py:75-162 `parse_dis_tree`.  (Line 118: the children of a span are `dis_tree[3:]`, although the children before are only the span itself and `rel2par`.) -/
def parseDisTree (tokenize : Bool) : PTree → DG → Except PyErr DG
  | .leaf _, _ => .error .attribute
  | .none, _ => .error .attribute
  | .node label kids, g => do
    let ty ← disTreeType (.node label [])
    let name ← disNodeName kids
    let nid := qual g.ns (String.ofList name)
    if ty = .root then do
      let g1 ← g.disSetRoot nid
      parseDisRoot tokenize nid 1 kids g1
    else do
      let rel ← disRelationType (some (.node label kids))
      if ← disIsLeafNode kids then do
        let text ← getEduText (kids.getLast?.getD .none)
        g.disAddLeaf tokenize nid text
      else do
        let g1 ← g.addNode (.str nid) (.atom .none) (.dict [(qual g.ns "rel_type", strVal rel), (qual g.ns "node_type", strVal ['s', 'p', 'a', 'n'])]) []
        let g2 ← g1.disSpanEdges nid ty rel (kids.drop 3)
        parseDisTrees tokenize 3 kids g2
/-- disgraph.py:87-95: the children of the root behind the first `skip` ones -/
def parseDisRoot (tokenize : Bool) (nid : String) (skip : Nat) : List PTree → DG → Except PyErr DG
  | [], g => .ok g
  | k :: ks, g =>
    match skip with
    | n + 1 => parseDisRoot tokenize nid n ks g
    | 0 => do
      let cid ← disNodeId g.ns k
      let g1 ← g.addEdge (.str nid) (.str cid) (.atom .none) none .none [("edge_type", .atom (.str dominanceRelation))]
      let g2 ← parseDisTree tokenize k g1
      parseDisRoot tokenize nid 0 ks g2
/-- disgraph.py:161-162: the children of a span behind the first `skip` ones -/
def parseDisTrees (tokenize : Bool) (skip : Nat) : List PTree → DG → Except PyErr DG
  | [], g => .ok g
  | k :: ks, g =>
    match skip with
    | n + 1 => parseDisTrees tokenize n ks g
    | 0 => do
      let g1 ← parseDisTree tokenize k g
      parseDisTrees tokenize 0 ks g1
end

/-- disgraph.py:57-65: the graph before the tree is read: a root node 0 -/
def disStart (name ns : String) : Except PyErr DG := do
  let g ← ({ init "" "discoursegraph" none with name := name, ns := ns, root := .int 0 }).addNode (.int 0) (.set [.str ns]) .none [("label", .atom (.str (qual ns "root_node")))]
  if Dict.has g.nodes (.str "discoursegraph:root_node") then g.removeNode (.str "discoursegraph:root_node") else .ok g

/-- disgraph.py:38-73 `RSTLispDocumentGraph(dis_filepath, name, namespace, tokenize, precedence)` for a file with the given tree -/
def disRead (name ns : String) (tokenize precedence : Bool) (tree : PTree) : Except PyErr DG := do
  let g ← disStart name ns
  let g1 ← parseDisTree tokenize tree g
  if precedence then batch g1.addPrecedenceRelations else .ok g1

end DG
end Dg
