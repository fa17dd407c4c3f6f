/-
Specification of the content of a document graph read from a TigerXML file, in terms of the elements of the file.
-/
import Verif.Model.Tiger
import Verif.Spec.Script

namespace Dg

/-- the value of an XML attribute ("" if there is none) -/
def xval (d : XAttrs) (k : String) : String := (Dict.find d k).getD ""

/-- the node of a terminal -/
def TigerT.node (t : TigerT) : NodeId := .str (xval t.attrs "id")

/-- the node of a nonterminal -/
def TigerNt.node (t : TigerNt) : NodeId := .str (xval t.attrs "id")

/-- the node an edge points to -/
def refNode (e : XAttrs) : NodeId := .str (xval e "idref")

/-- the root given in the file -/
def TigerS.root (s : TigerS) : NodeId := .str (xval s.graph "root")

/-- the token nodes of a sentence in document order -/
def TigerS.toks (s : TigerS) : List NodeId := s.terms.map TigerT.node

/-- all nodes declared in a sentence -/
def TigerS.declared (s : TigerS) : List NodeId := s.toks ++ s.nts.map TigerNt.node

/-- all references in a sentence -/
def TigerS.refs (s : TigerS) : List NodeId :=
  s.terms.flatMap (fun t => t.secs.map refNode) ++ s.nts.flatMap (fun t => t.edges.map refNode ++ t.secs.map refNode)

/-- an XML element has each attribute once and all required ones -/
def XmlOk (required : List String) (d : XAttrs) : Prop := (Dict.keys d).Nodup ∧ ∀ k ∈ required, k ∈ Dict.keys d

/-- a sentence that conforms to the TigerXML format: required attributes, unique IDs, all references to elements of the sentence.
In addition, what the reader needs: a nonterminal with secondary edges has, or follows, an `<edge>`; no nonterminal has an attribute called "token". -/
structure TigerS.Valid (s : TigerS) : Prop where
  graph : "root" ∈ Dict.keys s.graph
  term : ∀ t ∈ s.terms, XmlOk ["id", "word"] t.attrs ∧ ∀ e ∈ t.secs, XmlOk ["idref"] e
  nt : ∀ t ∈ s.nts, XmlOk ["id", "cat"] t.attrs ∧ (∀ e ∈ t.edges, XmlOk ["idref", "label"] e) ∧ ∀ e ∈ t.secs, XmlOk ["idref"] e
  unique : s.declared.Nodup
  root : s.root ∈ s.declared
  refs : ∀ n ∈ s.refs, n ∈ s.declared
  label : ∀ pre t post, s.nts = pre ++ t :: post → t.secs ≠ [] → (pre ++ [t]).flatMap TigerNt.edges ≠ []
  noToken : ∀ t ∈ s.nts, "token" ∉ Dict.keys t.attrs

namespace DG

/-- an edge that a graph should have -/
structure EdgeSpec where
  source : NodeId
  target : NodeId
  layers : List String
  attrs : Attrs
  deriving DecidableEq, Repr

/-- the edges of `g` are exactly the given ones: every edge of the graph is one of them, each of them is an edge of the graph with exactly these attributes and layers, and the numbers of edges between two nodes agree -/
structure EdgesAre (g : DG) (es : List EdgeSpec) : Prop where
  sound : ∀ u v a, g.EdgeWith u v a → ∃ e ∈ es, e.source = u ∧ e.target = v ∧ MatchesArgs a e.layers e.attrs
  complete : ∀ e ∈ es, ∃ a, g.EdgeWith e.source e.target a ∧ MatchesArgs a e.layers e.attrs
  count : ∀ u v, g.edgeCount u v = es.countP (fun e => decide (e.source = u ∧ e.target = v))

/-- XML attributes in a namespace -/
def xmlAttrs (p : String) (d : XAttrs) : Attrs := d.map (fun kv => (qual p kv.1, Val.atom (.str kv.2)))

/-- a string as attribute value -/
def strV (s : String) : Val := .atom (.str s)

/-- the attributes of a terminal -/
def termAttr (p : String) (t : TigerT) (k : String) : Option Val :=
  if k = "label" ∨ k = qual p "token" then some (strV (xval t.attrs "word")) else Dict.find (xmlAttrs p t.attrs) k

/-- the attributes of a nonterminal -/
def ntAttr (p : String) (t : TigerNt) (k : String) : Option Val :=
  if k = "label" then some (strV (xval t.attrs "cat")) else Dict.find (xmlAttrs p t.attrs) k

/-- the edges of a terminal: its secondary edges -/
def termEdges (p : String) (t : TigerT) : List EdgeSpec :=
  t.secs.map (fun e => ⟨t.node, refNode e, [p, qual p "secedge"], xmlAttrs p e ++ [("edge_type", strV "points_to")]⟩)

/-- the label of the last `<edge>` -/
def lastEdgeLabel (nts : List TigerNt) : String :=
  match (nts.flatMap TigerNt.edges).getLast? with
  | some e => xval e "label"
  | none => ""

/-- the edges of a nonterminal: "spans" to tokens, "dominates" to other nodes; secondary edges – these get, besides their own label under `tiger:label`, the `label` of the last `<edge>` that precedes them in the sentence -/
def ntEdges (p : String) (toks : List NodeId) (before : List TigerNt) (t : TigerNt) : List EdgeSpec :=
  t.edges.map (fun e => ⟨t.node, refNode e, [p, qual p "edge"], xmlAttrs p e ++ [("label", strV (xval e "label")), ("edge_type", strV (if refNode e ∈ toks then "spans" else "dominates"))]⟩) ++
  t.secs.map (fun e => ⟨t.node, refNode e, [p, qual p "secedge"], xmlAttrs p e ++ [("label", strV (lastEdgeLabel (before ++ [t]))), ("edge_type", strV "points_to")]⟩)

/-- the edges of all nonterminals -/
def ntsEdges (p : String) (toks : List NodeId) : List TigerNt → List TigerNt → List EdgeSpec
  | _, [] => []
  | before, t :: ts => ntEdges p toks before t ++ ntsEdges p toks (before ++ [t]) ts

/-- the edges given in the file -/
def fileEdges (p : String) (s : TigerS) : List EdgeSpec := s.terms.flatMap (termEdges p) ++ ntsEdges p s.toks [] s.nts

/-- the nodes without any edge (if the sentence has more than one node) -/
def isolated (p : String) (s : TigerS) : List NodeId :=
  s.declared.filter (fun n => decide (s.declared.length > 1 ∧ ∀ e ∈ fileEdges p s, e.source ≠ n ∧ e.target ≠ n))

/-- the root of a sentence in the graph: a virtual root if the root given in the file is a token -/
def topNode (p : String) (s : TigerS) : NodeId := if s.root ∈ s.toks then .str (qual p "VROOT") else s.root

/-- the edges of a sentence: those of the file and one from the root to each isolated node -/
def sentEdges (p : String) (s : TigerS) : List EdgeSpec :=
  fileEdges p s ++ (isolated p s).map (fun n => ⟨topNode p s, n, [p, qual p "sentence", qual p "unconnected"], [("edge_type", strV "dominates")]⟩)

/-- declarations (true) and references (false) in document order -/
def mentions (s : TigerS) : List (NodeId × Bool) :=
  s.terms.flatMap (fun t => (t.node, true) :: t.secs.map (fun e => (refNode e, false))) ++
  s.nts.flatMap (fun t => (t.node, true) :: (t.edges ++ t.secs).map (fun e => (refNode e, false)))

/-- the node is referenced before it is declared -/
def early (s : TigerS) (n : NodeId) : Bool := (mentions s).find? (fun m => decide (m.1 = n)) == some (n, false)

/-- the layers of the sentence root -/
def rootLayers (p : String) : List String := [p, qual p "sentence", qual p "sentence:root", qual p "syntax"]

/-- the layers of a declared node -/
def nodeLayers (p : String) (s : TigerS) (n : NodeId) : List String :=
  if n ∈ s.toks then [p, qual p "token"] ++ (if n = s.root then rootLayers p else if early s n then [qual p "secedge"] else [])
  else if n = s.root then rootLayers p
  else if early s n then [p, qual p "secedge"]
  else [p, qual p "syntax"]

/-- the token list of a sentence -/
def sentToks (s : TigerS) : List NodeId := naturalSorted s.toks

/-- a list of node IDs as attribute value -/
def idList (ns : List NodeId) : Val := .list (ns.map tigerSentence2graph.idAtom)

/-- the attributes of a declared node, apart from `layers` -/
def sentAttr (p : String) (s : TigerS) (n : NodeId) (k : String) : Option Val :=
  if k = "tokens" then (if n = s.root then some (idList (sentToks s)) else none)
  else match s.terms.find? (fun t => decide (t.node = n)) with
    | some t => termAttr p t k
    | none =>
      match s.nts.find? (fun t => decide (t.node = n)) with
      | some t => ntAttr p t k
      | none => none

/-- the root of the document graph -/
def docRoot (ns : String) : NodeId := .str (qual ns "root_node")

/-- a file the reader can handle: valid sentences, IDs are unique in the whole file, and no ID is one of those the reader uses for its own nodes -/
structure ValidDoc (ns : String) (ss : List TigerS) : Prop where
  valid : ∀ s ∈ ss, s.Valid
  unique : (ss.flatMap TigerS.declared).Nodup
  root : docRoot ns ∉ ss.flatMap TigerS.declared
  vroot : NodeId.str (qual "tiger" "VROOT") ∉ ss.flatMap TigerS.declared

/-- the edge from the document to a sentence -/
def sentenceEdge (ns : String) (s : TigerS) : EdgeSpec := ⟨docRoot ns, topNode "tiger" s, [ns, qual ns "sentence"], [("edge_type", strV "dominates")]⟩

/-- all edges of the document -/
def docEdges (ns : String) (ss : List TigerS) : List EdgeSpec := ss.flatMap (fun s => sentEdges "tiger" s ++ [sentenceEdge ns s])

/-- the layers of a virtual root -/
def vrootLayers : List String := ["tiger", "tiger:syntax", "tiger:sentence", "tiger:sentence:root"]

end DG
end Dg
