/-
Specification of the content of a graph read from an .rs3 file, in terms of the elements of the file.
-/
import Verif.Model.RstGraph
import Verif.Spec.Tiger

namespace Dg

/-- the element is a segment (with text or not) -/
def Rs3Xml.isSegment (x : Rs3Xml) : Bool := match x.kind with | .segment _ => true | .group _ => false

/-- the element is a group that has no parent: the root of an RST tree -/
def Rs3Xml.isRoot (x : Rs3Xml) : Bool := !x.isSegment && x.parent.isNone

/-- the text of a segment, without leading and trailing whitespace -/
def Rs3Xml.text (x : Rs3Xml) : List Char := match x.kind with | .segment t => sanitizeString t | .group _ => []

/-- how an element is related to its parent, according to the header of the file: "rst" (satellite), "multinuc" (nucleus of a multinuclear relation), or otherwise (nucleus of a span) -/
inductive Role
  | satellite
  | nucleus
  | span
  deriving DecidableEq, Repr

/-- the role of an element with a parent -/
def Rs3Xml.role (rels : Dict (List Char) (List Char)) (x : Rs3Xml) : Role :=
  match Dict.find rels (x.relname.getD []) with
  | none => .span
  | some t => if t = ['r', 's', 't'] then .satellite else if t = ['m', 'u', 'l', 't', 'i', 'n', 'u', 'c'] then .nucleus else .span

/-- a file the reader can handle: IDs are unique and contain no colon, parents are elements of the file, elements with a parent have a relation, groups have a type, and at most one group has no parent -/
structure Rs3Doc.ReadOk (doc : Rs3Doc) : Prop where
  unique : (doc.elems.map Rs3Xml.id).Nodup
  colon : ∀ x ∈ doc.elems, ':' ∉ x.id
  noRoot : ∀ x ∈ doc.elems, x.id ≠ ['r', 'o', 'o', 't', '_', 'n', 'o', 'd', 'e']
  parent : ∀ x ∈ doc.elems, ∀ p, x.parent = some p → ∃ y ∈ doc.elems, y.id = p
  rel : ∀ x ∈ doc.elems, x.parent.isSome → x.relname.isSome
  type : ∀ x ∈ doc.elems, x.kind ≠ .group none
  root : ∀ x ∈ doc.elems, ∀ y ∈ doc.elems, x.isRoot → y.isRoot → x = y

namespace DG

/-- the node of an element -/
def rstNode (ns : String) (x : Rs3Xml) : NodeId := rstId ns x.id

/-- the edge from the parent of an element to the element -/
def rstEdge (ns : String) (rels : Dict (List Char) (List Char)) (x : Rs3Xml) (p : List Char) : EdgeSpec :=
  ⟨rstId ns p, rstNode ns x, [ns],
    [(qual ns "rel_name", strVal (x.relname.getD [])), (qual ns "rel_type", strVal ((Dict.find rels (x.relname.getD [])).getD [])), ("label", .atom (.str (qual ns (String.ofList (x.relname.getD []))))),
     ("edge_type", .atom (.str (if x.role rels = .span then "spans" else "dominates")))]⟩

/-- a token: the segment it belongs to, its number and the word -/
structure RstTok where
  seg : Rs3Xml
  num : Nat
  word : List Char
  deriving DecidableEq, Repr

/-- the node of a token: the namespace (twice), the ID of the segment and the number of the word -/
def RstTok.node (ns : String) (t : RstTok) : NodeId := .str (qual ns (qual ns (String.ofList (t.seg.id ++ ['_'] ++ decimal t.num))))

/-- the tokens of a segment: the words of its text -/
def segTokens (x : Rs3Xml) : List RstTok := (splitWs x.text).zipIdx.map (fun w => ⟨x, w.2, w.1⟩)

/-- the segments of a file in document order -/
def Rs3Doc.segments (doc : Rs3Doc) : List Rs3Xml := doc.elems.filter Rs3Xml.isSegment

/-- the tokens of a file in document order -/
def Rs3Doc.tokens (doc : Rs3Doc) : List RstTok := (Rs3Doc.segments doc).flatMap segTokens

/-- the edge from a segment to a token -/
def tokEdge (ns : String) (t : RstTok) : EdgeSpec := ⟨rstNode ns t.seg, t.node ns, ["rst", "rst:token"], [("edge_type", .atom (.str "spans"))]⟩

/-- a precedence edge -/
def precEdge (ns : String) (u v : NodeId) : EdgeSpec := ⟨u, v, [ns, qual ns "precedence"], [("edge_type", .atom (.str "precedes"))]⟩

/-- the precedence edges: from the root to the first token and from each token to the next one -/
def precEdges (ns : String) (root : NodeId) (toks : List NodeId) : List EdgeSpec := ((root :: toks).zip toks).map (fun p => precEdge ns p.1 p.2)

/-- the root: the node of the group without parent, or the default root -/
def Rs3Doc.rootNode (ns : String) (doc : Rs3Doc) : NodeId :=
  match doc.elems.find? Rs3Xml.isRoot with
  | some x => rstNode ns x
  | none => docRoot ns

/-- the edges between elements -/
def elemEdges (ns : String) (doc : Rs3Doc) : List EdgeSpec :=
  doc.elems.filterMap (fun x => x.parent.map (rstEdge ns (extractRelationtypes doc.rels) x))

/-- all edges -/
def rstDocEdges (ns : String) (tokenize precedence : Bool) (doc : Rs3Doc) : List EdgeSpec :=
  elemEdges ns doc ++ (if tokenize then (Rs3Doc.tokens doc).map (tokEdge ns) else []) ++
    (if tokenize && precedence then precEdges ns (Rs3Doc.rootNode ns doc) ((Rs3Doc.tokens doc).map (RstTok.node ns)) else [])

/-- the order in which the reader handles the elements: segments first -/
def rstOrder (doc : Rs3Doc) : List Rs3Xml := doc.elems.filter Rs3Xml.isSegment ++ doc.elems.filter (fun x => !x.isSegment)

/-- the type of an element according to its relation to its parent -/
def typeName (rels : Dict (List Char) (List Char)) (x : Rs3Xml) : String :=
  if x.parent = none then (if x.isSegment then "isolated" else "span")
  else match x.role rels with
    | .satellite => "satellite"
    | .nucleus => "nucleus"
    | .span => "span"

/-- `y` is a child of `x` -/
def ChildOf (y x : Rs3Xml) : Prop := y.parent = some x.id

/-- `y` is a satellite of `x` -/
def SatelliteOf (rels : Dict (List Char) (List Char)) (y x : Rs3Xml) : Prop := ChildOf y x ∧ y.role rels = .satellite

instance (y x : Rs3Xml) : Decidable (ChildOf y x) := by unfold ChildOf; infer_instance
instance (rels : Dict (List Char) (List Char)) (y x : Rs3Xml) : Decidable (SatelliteOf rels y x) := by unfold SatelliteOf; infer_instance

/-- the layers of an element -/
def rstLayers (ns : String) (x : Rs3Xml) : List String :=
  [ns, qual ns (if x.isSegment then "segment" else if x.parent = none then "root" else "group")]

end DG
end Dg
