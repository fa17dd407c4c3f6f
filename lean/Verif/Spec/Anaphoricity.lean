/-
Specification of anaphoricity files: annotated words and the token nodes they stand for.
-/
import Verif.Spec.Words
import Verif.Spec.GraphView

namespace Dg

/-- the words that can be annotated -/
def anaphors : List (List Char) := [['d', 'a', 's'], ['D', 'a', 's'], ['e', 's'], ['E', 's']]

/-- letters of the annotation and what they mean -/
def anaphLetters : List (Char × String) := [('a', "abstract"), ('n', "nominal"), ('p', "pleonastic"), ('r', "relative")]

/-- at position `k` of `w` there is an annotated word: `t`, a slash, the letter of the annotation `ty`, and then a question mark iff `u` -/
def AnnotationAt (w : List Char) (k : Nat) (t : List Char) (ty : String) (u : Bool) : Prop :=
  t ∈ anaphors ∧ ∃ x r, (x, ty) ∈ anaphLetters ∧ w.drop k = t ++ '/' :: x :: r ∧ (u = true ↔ r.head? = some '?')

/-- the first annotation in `w` -/
def Annotated (w t : List Char) (ty : String) (u : Bool) : Prop := ∃ k, AnnotationAt w k t ty u ∧ ∀ j < k, ∀ t' ty' u', ¬ AnnotationAt w j t' ty' u'

/-- no annotation in `w` -/
def Unannotated (w : List Char) : Prop := ∀ k t ty u, ¬ AnnotationAt w k t ty u

namespace DG

/-- attributes and layers of the node of a word -/
inductive AnaphToken (ns : String) (w : List Char) : Attrs → List String → Prop
  | plain : Unannotated w → AnaphToken ns w [(qual ns "token", .atom (.str (String.ofList w))), ("label", .atom (.str (String.ofList w)))] [ns, qual ns "token"]
  | annotated {t : List Char} {ty : String} {u : Bool} : Annotated w t ty u →
      AnaphToken ns w [(qual ns "annotation", .atom (.str ty)), (qual ns "certainty", .atom (.str (if u then "0.5" else "1.0"))), (qual ns "token", .atom (.str (String.ofList t))),
        ("label", .atom (.str (String.ofList (t ++ '_' :: ty.toList))))] [ns, qual ns "token", qual ns "annotated"]

/-- the node has exactly these attributes (besides its layers) and exactly these layers -/
def NodeIs (g : DG) (n : NodeId) (at' : Attrs) (ls : List String) : Prop :=
  (∀ k, k ≠ "layers" → g.nodeAttr n k = Dict.find at' k) ∧ ∀ l, g.NodeLayer n l ↔ l ∈ ls.map Atom.str

end DG
end Dg
