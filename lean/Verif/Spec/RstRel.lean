/-
Specification of the relations of an .rs3 file, as the queries on the graph should report them, in terms of the elements of the file.
-/
import Verif.Spec.RstGraph
import Mathlib.Data.List.Forall2

namespace Dg
namespace DG

/-- `z` is `x` or lies below `x` in the tree of the file -/
inductive Under (doc : Rs3Doc) : Rs3Xml → Rs3Xml → Prop
  | refl (x : Rs3Xml) : Under doc x x
  | child {x y z : Rs3Xml} : y ∈ doc.elems → ChildOf y x → Under doc z y → Under doc z x

/-- no element lies below itself -/
def RstAcyclic (doc : Rs3Doc) : Prop := ∀ x ∈ doc.elems, ∀ y ∈ doc.elems, ChildOf y x → ¬ Under doc x y

/-- the relation name "span" is used exactly for the nuclei of spans: it is not declared as a relation, and all other names are declared -/
def RelNamesOk (doc : Rs3Doc) : Prop :=
  ∀ x ∈ doc.elems, x.parent.isSome = true → (x.role (extractRelationtypes doc.rels) = .span ↔ x.relname = some ['s', 'p', 'a', 'n'])

/-- `span` lists the tokens of the segments under `x`, each once, in natural order of their IDs -/
structure CoversTokens (ns : String) (doc : Rs3Doc) (x : Rs3Xml) (span : List NodeId) : Prop where
  nodup : span.Nodup
  sorted : span.Pairwise (fun a b => naturalLe a b = true)
  mem : ∀ m, m ∈ span ↔ ∃ t ∈ Rs3Doc.tokens doc, Under doc t.seg x ∧ m = t.node ns

/-- the children of `x` with the given role, in document order -/
def childrenOf (doc : Rs3Doc) (role : Role) (x : Rs3Xml) : List Rs3Xml :=
  doc.elems.filter (fun y => decide (ChildOf y x ∧ y.role (extractRelationtypes doc.rels) = role))

/-- an entry (node ID, relation name, tokens) describes the element `y` -/
def EntryFor (ns : String) (doc : Rs3Doc) (y : Rs3Xml) (e : NodeId × Val × List NodeId) : Prop :=
  e.1 = rstNode ns y ∧ e.2.1 = strVal (y.relname.getD []) ∧ CoversTokens ns doc y e.2.2

/-- the description of the relations of `x`: the tokens of `x` itself; a nucleus, if `x` has a child that is the nucleus of a span; one entry for each satellite and one for each nucleus of a multinuclear relation among the children of `x` (in any order) -/
structure RelDescribes (ns : String) (doc : Rs3Doc) (x : Rs3Xml) (r : RstRel) : Prop where
  tokens : r.tokens = (segTokens x).map (RstTok.node ns)
  nucleus : ∀ m span, r.nucleus = some (m, span) → ∃ y ∈ childrenOf doc .span x, m = rstNode ns y ∧ CoversTokens ns doc y span
  noNucleus : r.nucleus = none ↔ childrenOf doc .span x = []
  satellites : ∃ ys, ys.Perm (childrenOf doc .satellite x) ∧ List.Forall₂ (EntryFor ns doc) ys r.satellites
  multinuc : ∃ ys, ys.Perm (childrenOf doc .nucleus x) ∧ List.Forall₂ (EntryFor ns doc) ys r.multinuc

/-- the element dominates a relation: one of its children is a satellite or a nucleus of a multinuclear relation -/
def HasRelation (doc : Rs3Doc) (x : Rs3Xml) : Prop := ∃ y ∈ doc.elems, ChildOf y x ∧ y.role (extractRelationtypes doc.rels) ≠ .span

instance (doc : Rs3Doc) (x : Rs3Xml) : Decidable (HasRelation doc x) := by unfold HasRelation; infer_instance

/-- the name of the last relation of `x`, in the order in which the reader handles the elements -/
def lastRelName (doc : Rs3Doc) (x : Rs3Xml) : List Char :=
  ((((rstOrder doc).filter (fun y => decide (ChildOf y x ∧ y.role (extractRelationtypes doc.rels) ≠ .span))).getLast?).bind Rs3Xml.relname).getD []

/-- `xs` lists the elements that dominate a relation, each once -/
def RelationRoots (doc : Rs3Doc) (xs : List Rs3Xml) : Prop := xs.Nodup ∧ ∀ x, x ∈ xs ↔ x ∈ doc.elems ∧ HasRelation doc x

/-- `a` and `b` are the positions of the first and the last of the tokens with the property `P` -/
def FirstLast (toks : List RstTok) (P : RstTok → Prop) (a b : Nat) : Prop :=
  (∃ t, toks[a]? = some t ∧ P t) ∧ (∃ t, toks[b]? = some t ∧ P t) ∧ ∀ (i : Nat) t, toks[i]? = some t → P t → a ≤ i ∧ i ≤ b

/-- what a row of get_rst_spans should say: name of the relation, type of the span, relation name, and the tokens it covers -/
structure RowSpec where
  rel : String
  type : String
  relname : List Char
  covers : RstTok → Prop

/-- the row says it: the offsets are the positions of the first and last of the covered tokens -/
def RowSpec.Matches (doc : Rs3Doc) (w : RowSpec) (row : RstSpan) : Prop :=
  row.rel = w.rel ∧ row.type = w.type ∧ row.relname = strVal w.relname ∧ FirstLast (Rs3Doc.tokens doc) w.covers row.onset row.offset

/-- the ID of an element as it occurs in the names of relations -/
def elemId (x : Rs3Xml) : String := "rst:" ++ String.ofList x.id

/-- the rows of the multinuclear relations of `x` with the nuclei `ms`: one for each nucleus, numbered from 1 -/
def multinucRows (doc : Rs3Doc) (x : Rs3Xml) (ms : List Rs3Xml) : List RowSpec :=
  ms.zipIdx.map (fun p => ⟨elemId x ++ "-" ++ String.intercalate "-" (ms.map elemId), "N" ++ String.ofList (decimal (p.2 + 1)), p.1.relname.getD [], fun t => Under doc t.seg p.1⟩)

/-- the nucleus of the satellites of `x`: the nucleus of the span `z`, if there is one; otherwise the nuclei of the multinuclear relations; otherwise the tokens of `x` itself -/
def nucleusOf (doc : Rs3Doc) (x : Rs3Xml) (z : Option Rs3Xml) (ms : List Rs3Xml) : String × (RstTok → Prop) :=
  match z, ms with
  | some z, _ => (elemId z, fun t => Under doc t.seg z)
  | none, y :: ys => (elemId x, fun t => ∃ m ∈ y :: ys, Under doc t.seg m)
  | none, [] => (elemId x, fun t => t.seg = x)

/-- the rows of the satellites `ss` of `x`: two for each satellite -/
def satelliteRows (doc : Rs3Doc) (x : Rs3Xml) (z : Option Rs3Xml) (ms ss : List Rs3Xml) : List RowSpec :=
  ss.flatMap (fun y =>
    [⟨(nucleusOf doc x z ms).1 ++ "-" ++ elemId y, "N", y.relname.getD [], (nucleusOf doc x z ms).2⟩,
     ⟨(nucleusOf doc x z ms).1 ++ "-" ++ elemId y, "S", y.relname.getD [], fun t => Under doc t.seg y⟩])

/-- the rows of the relations of `x` -/
def RowsFor (doc : Rs3Doc) (x : Rs3Xml) (rows : List RstSpan) : Prop :=
  ∃ z ms ss, ms.Perm (childrenOf doc .nucleus x) ∧ ss.Perm (childrenOf doc .satellite x) ∧ (∀ y, z = some y → y ∈ childrenOf doc .span x) ∧ (z = none → childrenOf doc .span x = []) ∧
    List.Forall₂ (RowSpec.Matches doc) (multinucRows doc x ms ++ satelliteRows doc x z ms ss) rows

/-- every element has a token in its subtree, and a group with satellites has a nucleus -/
def Spanning (doc : Rs3Doc) : Prop :=
  (∀ x ∈ doc.elems, ∃ t ∈ Rs3Doc.tokens doc, Under doc t.seg x) ∧
  ∀ x ∈ doc.elems, childrenOf doc .satellite x ≠ [] → childrenOf doc .span x ≠ [] ∨ childrenOf doc .nucleus x ≠ [] ∨ segTokens x ≠ []

end DG
end Dg
