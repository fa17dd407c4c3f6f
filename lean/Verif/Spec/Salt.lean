/-
Specification of Salt documents: what the elements of a SaltXMI file stand for.
-/
import Verif.Model.Salt
import Mathlib.Data.List.Forall2
import Verif.Spec.Words

namespace Dg
open Dict

/-- `e` is a `<labels>` element for the label `l`: name, value, type and namespace (if any) are attributes of `e`; so is the hexadecimal form of the value, unless it is empty and has to be computed -/
structure SXml.SaysLabel (e : SXml) (l : SaltLabel) : Prop where
  name : find e.attrs "name" = some l.name
  value : find e.attrs "valueString" = some l.value
  type : find e.attrs xsiType = some l.xsiType
  ns : ∀ s, l.ns = some s ↔ find e.attrs "namespace" = some s ∧ s ≠ ""
  hex : ∃ h, find e.attrs "value" = some h ∧ (h ≠ "" → l.hex = h) ∧ (h = "" → l.hex = string2xmihex l.value)

/-- `s` refers to the element number `i`, e.g. `//@nodes.5` to number 5 -/
def SaltRefTo (s : List Char) (i : Int) : Prop := ∃ p d, s = p ++ '.' :: d ∧ '.' ∉ p ∧ '.' ∉ d ∧ pyInt d = some i

/-- the attribute `k` of `e` is a list of references (possibly missing) to the elements `ids` -/
def SXml.RefersTo (e : SXml) (k : String) (ids : List Int) : Prop :=
  (find e.attrs k = none ∧ ids = []) ∨ ∃ s ws, find e.attrs k = some s ∧ Words isUniSpace s.toList ws ∧ List.Forall₂ SaltRefTo ws ids

/-- the attribute `k` of `e` is one reference -/
def SXml.RefersToOne (e : SXml) (k : String) (i : Int) : Prop := ∃ s, find e.attrs k = some s ∧ SaltRefTo s.toList i

/-- the attribute `k` of `e` contains exactly the numbers `ns` (in this order, between other characters); none if it is missing -/
def SXml.HasNumbers (e : SXml) (k : String) (ns : List Nat) : Prop :=
  ∃ ws, Words (fun c => !isDigitChar c) ((find e.attrs k).getD "").toList ws ∧ ns = ws.map parseDec

/-- the value of the first label with a given name -/
def firstLabel (ls : List SaltLabel) (name : String) : Option String := (ls.find? (fun l => l.name = name)).map SaltLabel.value

/-- the value of the last annotation with a given name -/
def lastAnnotation (ls : List SaltLabel) (name : String) : Option String :=
  ((ls.filter (fun l => l.xsiType = "saltCore:SAnnotation" ∧ l.name = name)).getLast?).map SaltLabel.value

/-- `fs` are the annotations among the labels -/
def AnnotationsOf (ls : List SaltLabel) (fs : Dict String String) : Prop := ∀ k, find fs k = lastAnnotation ls k

/-- the kinds of objects that are made of elements -/
inductive SaltKind
  | node | text | edge | textual | dominance | layer
  deriving DecidableEq

/-- the types of elements and what they stand for -/
def saltKinds : List (String × SaltKind) :=
  [("sDocumentStructure:SStructure", .node), ("sDocumentStructure:SSpan", .node), ("sDocumentStructure:SToken", .node), ("sDocumentStructure:STextualDS", .text),
   ("sDocumentStructure:SSpanningRelation", .edge), ("sDocumentStructure:STextualRelation", .textual), ("sDocumentStructure:SDominanceRelation", .dominance), ("saltCore:SLayer", .layer)]

/-- what an object says that is not specific to its kind -/
def SaltObj.common (o : SaltObj) : SaltObj := { cls := .element, name := o.name, elementId := o.elementId, xsi := o.xsi, labels := o.labels }

/-- the attributes of an object of a given kind and the element it stands for -/
def SXml.SaysKind (e : SXml) (o : SaltObj) : SaltKind → Prop
  | .node => ∃ ids fs, e.RefersTo "layers" ids ∧ AnnotationsOf o.labels fs ∧ o = { o.common with cls := .node, layers := some ids, features := some fs }
  | .text => ∃ ids fs t, e.RefersTo "layers" ids ∧ AnnotationsOf o.labels fs ∧ firstLabel o.labels "SDATA" = some t ∧
      o = { o.common with cls := .primaryText, layers := some ids, features := some fs, text := some t }
  | .edge => ∃ ids s t, e.RefersTo "layers" ids ∧ e.RefersToOne "source" s ∧ e.RefersToOne "target" t ∧ o = { o.common with cls := .edge, layers := some ids, source := some s, target := some t }
  | .textual => ∃ ids s t a b a' b', e.RefersTo "layers" ids ∧ e.RefersToOne "source" s ∧ e.RefersToOne "target" t ∧
      firstLabel o.labels "SSTART" = some a ∧ firstLabel o.labels "SEND" = some b ∧ pyInt a.toList = some a' ∧ pyInt b.toList = some b' ∧
      o = { o.common with cls := .textual, layers := some ids, source := some s, target := some t, onset := some a', offset := some b' }
  | .dominance => ∃ ids s t fs, e.RefersTo "layers" ids ∧ e.RefersToOne "source" s ∧ e.RefersToOne "target" t ∧ AnnotationsOf o.labels fs ∧
      o = { o.common with cls := .dominance, layers := some ids, source := some s, target := some t, features := some fs }
  | .layer => ∃ ns es, e.HasNumbers "nodes" ns ∧ e.HasNumbers "edges" es ∧ o = { o.common with cls := .layer, nodes := some ns, edges := some es }

/-- the element `e` stands for the object `o` -/
structure SXml.Says (e : SXml) (o : SaltObj) : Prop where
  labels : List.Forall₂ SXml.SaysLabel e.children o.labels
  name : firstLabel o.labels "SNAME" = some o.name
  id : firstLabel o.labels "id" = o.elementId
  type : find e.attrs xsiType = some o.xsi
  kind : ∃ k, (o.xsi, k) ∈ saltKinds ∧ e.SaysKind o k

/-- two elements with the same content: the order of attributes does not matter -/
inductive SXml.Same : SXml → SXml → Prop
  | mk {t : String} {a b : Dict String String} {cs ds : List SXml} : (∀ k, find a k = find b k) → List.Forall₂ SXml.Same cs ds → SXml.Same (.mk t a cs) (.mk t b ds)

end Dg

namespace Dg
open Dict

/-- a list of references in the usual form, e.g. `//@layers.0 //@layers.3` -/
def refList (kind : String) (ids : List Int) : String := pyJoin " " (ids.map (fun i => "//@" ++ (kind ++ ("." ++ String.ofList (decimalInt i)))))

/-- a `<labels>` element without anything that is not part of a label -/
def SXml.PlainLabel (e : SXml) : Prop :=
  e.tag = "labels" ∧ e.children = [] ∧ (∀ k v, find e.attrs k = some v → k ∈ [xsiType, "namespace", "name", "value", "valueString"]) ∧ find e.attrs "namespace" ≠ some "" ∧ find e.attrs "value" ≠ some ""

/-- the tag of the elements of a kind -/
def SaltKind.tag : SaltKind → String
  | .node | .text => "nodes"
  | .edge | .textual | .dominance => "edges"
  | .layer => "layers"

/-- the attributes (apart from the type) of the elements of a kind, each with the elements it refers to -/
def SaltKind.refs : SaltKind → List (String × String)
  | .node | .text => [("layers", "layers")]
  | .edge | .textual | .dominance => [("source", "nodes"), ("target", "nodes"), ("layers", "layers")]
  | .layer => [("nodes", "nodes"), ("edges", "edges")]

/-- an element as Salt writes it: only labels inside, all attributes of its kind, and nothing else -/
structure SXml.Usual (e : SXml) (k : SaltKind) : Prop where
  tag : e.tag = k.tag
  labels : ∀ c ∈ e.children, c.PlainLabel
  only : ∀ a v, find e.attrs a = some v → a = xsiType ∨ a ∈ k.refs.map Prod.fst
  refs : ∀ a kind, (a, kind) ∈ k.refs → ∃ ids : List Int, find e.attrs a = some (refList kind ids) ∧ (k = .layer → ∀ i ∈ ids, 0 ≤ i) ∧ (a ∈ ["source", "target"] → ids.length = 1)

end Dg
