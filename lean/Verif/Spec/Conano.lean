/-
Specification of Conano documents: elements and words in document order.
-/
import Verif.Model.Conano
import Verif.Spec.Script
import Verif.Spec.Words
import Verif.Spec.Anaphoricity

namespace Dg

/-- an element with its node ID and layers -/
inductive CTree
  | node (id : String) (layers : List String) (text : List Char) (kids : List CTree) (tail : List Char)

mutual
/-- node IDs and layers of all elements (an error if an attribute is missing); `up` = attributes of the parent element -/
def CElem.resolve (ns : String) (up : Option (Dict String String)) : CElem → Except PyErr CTree
  | .elem tag a text kids tail => do
    let r ← conanoId ns tag a up
    let ks ← CElem.resolveAll ns (some a) kids
    return .node r.1 r.2 text ks tail
/-- the same for a list of elements -/
def CElem.resolveAll (ns : String) (up : Option (Dict String String)) : List CElem → Except PyErr (List CTree)
  | [] => .ok []
  | e :: es => do
    let t ← CElem.resolve ns up e
    let ts ← CElem.resolveAll ns up es
    return t :: ts
end

/-- an item of the document: the beginning of an element, or a word, each with the innermost element around it -/
inductive CStep
  | elem (parent : NodeId) (id : String) (layers : List String)
  | word (parent : NodeId) (w : List Char)
  deriving DecidableEq

mutual
/-- the items of an element (including the text after it) in document order -/
def CTree.steps (parent : NodeId) : CTree → List CStep
  | .node id ls text kids tail => .elem parent id ls :: ((splitWs text).map (CStep.word (.str id)) ++ CTree.stepsAll (.str id) kids ++ (splitWs tail).map (CStep.word parent))
/-- the items of a list of elements -/
def CTree.stepsAll (parent : NodeId) : List CTree → List CStep
  | [] => []
  | t :: ts => CTree.steps parent t ++ CTree.stepsAll parent ts
end

/-- words with the innermost element around them -/
def CStep.word? : CStep → Option (NodeId × List Char)
  | .word p w => some (p, w)
  | _ => none

/-- the words of a document in order, with the innermost element around them -/
def wordsOf (s : List CStep) : List (NodeId × List Char) := s.filterMap CStep.word?

mutual
/-- the pieces of text between tags -/
def CElem.pieces : CElem → List (List Char)
  | .elem _ _ text kids tail => text :: (CElem.piecesAll kids ++ [tail])
/-- the pieces of text of a list of elements -/
def CElem.piecesAll : List CElem → List (List Char)
  | [] => []
  | e :: es => CElem.pieces e ++ CElem.piecesAll es
end

/-- between `a` and `b` there is a border between words -/
def Border (p : Char → Bool) (a b : List Char) : Prop := a = [] ∨ b = [] ∨ (∃ c, a.getLast? = some c ∧ p c = true) ∨ ∃ c, b.head? = some c ∧ p c = true

/-- no word goes on across a tag -/
def SeparatedPieces (p : Char → Bool) (ps : List (List Char)) : Prop := ∀ xs ys, ps = xs ++ ys → Border p xs.flatten ys.flatten

/-- node ID and layers of an element with the given tag and attributes; `up` = attributes of the parent element.  Units, connectives and the document itself have their own IDs; all other elements
are modifiers, named after the ID of their parent and their own tag -/
inductive ElemName (ns : String) (up : Option (Dict String String)) (a : Dict String String) : String → String → List String → Prop
  | unit {i t : String} : Dict.find a "id" = some i → Dict.find a "type" = some t → ElemName ns up a "unit" (i ++ ":" ++ t) [ns, ns ++ ":unit", ns ++ ":" ++ t]
  | connective {i : String} : Dict.find a "id" = some i → ElemName ns up a "connective" (i ++ ":connective") [ns, ns ++ ":connective"]
  | discourse : ElemName ns up a "discourse" "discourse" [ns]
  | modifier {tag i : String} {b : Dict String String} : tag ≠ "unit" → tag ≠ "connective" → tag ≠ "discourse" → up = some b → Dict.find b "id" = some i →
      ElemName ns up a tag (i ++ ":" ++ tag) [ns, ns ++ ":modifier"]

/-- an element, seen from the text: node ID, layers, number of its first word in the document, words between its tags -/
structure CPart where
  id : String
  layers : List String
  first : Nat
  words : List (List Char)
  deriving DecidableEq, Repr

mutual
/-- all words of an element and of the text after it -/
def CTree.words : CTree → List (List Char)
  | .node _ _ text kids tail => splitWs text ++ CTree.wordsAll kids ++ splitWs tail
/-- all words of a list of elements -/
def CTree.wordsAll : List CTree → List (List Char)
  | [] => []
  | t :: ts => CTree.words t ++ CTree.wordsAll ts
end

mutual
/-- the elements of a document; `n` = number of the first word -/
def CTree.elements (n : Nat) : CTree → List CPart
  | .node id ls text kids _ => ⟨id, ls, n, splitWs text ++ CTree.wordsAll kids⟩ :: CTree.elementsAll (n + (splitWs text).length) kids
/-- the elements of a list of elements -/
def CTree.elementsAll (n : Nat) : List CTree → List CPart
  | [] => []
  | t :: ts => CTree.elements n t ++ CTree.elementsAll (n + (CTree.words t).length) ts
end

/-- all elements have different node IDs, which are neither the ID of the root node nor that of a token -/
def CTree.Distinct (ns : String) (t : CTree) : Prop :=
  ((t.elements 1).map CPart.id).Nodup ∧ ∀ e ∈ t.elements 1, e.id ≠ ns ++ ":root_node" ∧ ∀ n, NodeId.str e.id ≠ DG.conanoTokenId n

end Dg
