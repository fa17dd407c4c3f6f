/-
The writer for the .rs3 format (src/discoursegraphs/readwrite/rst/rs3/rs3filewriter.py) up to the XML elements; `extract_relations` (rs3tree.py).
Not modelled here: the XML serialisation (lxml), the option `debug`.
-/
import Verif.Model.Rs3

namespace Dg
open DG (mapE)

/-- rs3tree.py:22, rs3filewriter.py:38: is this one of the labels N and S? -/
def isNucLabel (l : List Char) : Bool := l = ['N'] || l = ['S']

/-- `[child.label() for child in dgtree]`: strings have no method `label` -/
def labelsE : List PTree → Except PyErr (List (List Char))
  | [] => .ok []
  | .node l _ :: ks => do return l :: (← labelsE ks)
  | _ :: _ => .error .attribute

mutual
/-- rs3tree.py:544-578 `extract_relations` of a tree, `rels` are the relations found so far -/
def extractRelations (rels : Dict (List Char) (List Char)) : PTree → Except PyErr (Dict (List Char) (List Char))
  | .leaf _ => .ok rels
  | .none => .error .attribute
  | .node label kids =>
    if label = [] then (if kids.isEmpty then .ok rels else .error .assertion)
    else if isNucLabel label then extractRelationsAll rels kids
    else
      match labelsE kids with
      | .error e => .error e
      | .ok labels =>
        if labels.all isNucLabel then
          extractRelationsAll (Dict.put rels label (if ['S'] ∈ labels then ['r', 's', 't'] else ['m', 'u', 'l', 't', 'i', 'n', 'u', 'c'])) kids
        else .error .assertion
/-- the relations of a list of trees -/
def extractRelationsAll (rels : Dict (List Char) (List Char)) : List PTree → Except PyErr (Dict (List Char) (List Char))
  | [] => .ok rels
  | k :: ks =>
    match extractRelations rels k with
    | .error e => .error e
    | .ok rels => extractRelationsAll rels ks
end

mutual
/-- nltk's `tree.treepositions()`: the positions of all subtrees and leaves in preorder -/
def PTree.treepositions : PTree → List (List Nat)
  | .leaf _ => [[]]
  | .none => [[]]
  | .node _ kids => [] :: PTree.treepositionsAll 0 kids
/-- the positions below the children from number `i` on -/
def PTree.treepositionsAll (i : Nat) : List PTree → List (List Nat)
  | [] => []
  | k :: ks => (PTree.treepositions k).map (fun p => i :: p) ++ PTree.treepositionsAll (i + 1) ks
end

/-- the children of a tree -/
def PTree.children : PTree → List PTree
  | .node _ kids => kids
  | _ => []

/-- `tree[pos]` -/
def PTree.at? (t : PTree) : List Nat → Option PTree
  | [] => some t
  | i :: p => match t.children[i]? with
    | some k => PTree.at? k p
    | Option.none => Option.none

namespace Rs3Writer

/-- rs3filewriter.py:85-86, 101-103 `get_node_id` (KeyError is impossible for the positions of the tree; a position that is not in the tree gets the next number) -/
def nodeId (t : PTree) (pos : List Nat) : List Char := decimal (t.treepositions.idxOf pos + 1)

/-- rs3filewriter.py:105-110 `get_parent_treepos` -/
def parentPos (pos : List Nat) : Option (List Nat) := if pos = [] then none else some pos.dropLast

/-- rs3filewriter.py:112-124 `get_children_treepos` -/
def childrenPos (t : PTree) (pos : List Nat) : List (List Nat) :=
  match t.at? pos with
  | some s => (List.range s.children.length).map (fun i => pos ++ [i])
  | none => []

/-- rs3filewriter.py:126-135 `get_siblings_treepos` -/
def siblingsPos (t : PTree) (pos : List Nat) : List (List Nat) :=
  match parentPos pos with
  | some p => (childrenPos t p).filter (fun c => decide (c ≠ pos))
  | none => []

/-- rs3filewriter.py:137-146 `get_cousins_treepos` -/
def cousinsPos (t : PTree) (pos : List Nat) : List (List Nat) :=
  match parentPos pos with
  | some mother => (siblingsPos t mother).flatMap (childrenPos t)
  | none => []

/-- the label of the tree at a position -/
def labelAt (t : PTree) (pos : List Nat) : Except PyErr (List Char) :=
  match (t.at? pos).bind PTree.label? with
  | some l => .ok l
  | none => .error .attribute

/-- rs3filewriter.py:262-294 `get_relname_and_parent` of the node at this position, without the check of the node type: (relation name, parent ID) or None.  In the cases in
which the function ends without a return statement, the caller fails with a TypeError. -/
def relnameAndParent (t : PTree) (rels : Dict (List Char) (List Char)) (pos : List Nat) : Except PyErr (Option (List Char × List Char)) :=
  match parentPos pos with
  | none => .ok none
  | some pp =>
    match parentPos pp with
    | none => .ok none
    | some gp => do
      let parentLabel ← labelAt t pp
      let grandparentLabel ← labelAt t gp
      match Dict.find rels grandparentLabel with
      | some ty =>
        if ty = ['r', 's', 't'] then
          if parentLabel = ['N'] then .ok (some (['s', 'p', 'a', 'n'], nodeId t gp))
          else if parentLabel = ['S'] then
            match cousinsPos t pos with
            | [c] => .ok (some (grandparentLabel, nodeId t c))
            | _ => .error .assertion
          else .error .type
        else if ty = ['m', 'u', 'l', 't', 'i', 'n', 'u', 'c'] then .ok (some (grandparentLabel, nodeId t gp))
        else .error .type
      | none => .error .type

/-- rs3filewriter.py:159-169 `get_children_labels`: the label of a leaf is its text -/
def childrenLabels (s : PTree) : Except PyErr (List (List Char)) :=
  mapE (fun k => match k with
    | .leaf s => .ok s
    | .node l _ => .ok l
    | .none => .error .attribute) s.children

/-- rs3filewriter.py:251-260 `get_group_type` -/
def groupType (s : PTree) : Except PyErr (List Char) := do
  let labels ← childrenLabels s
  if labels.length = 2 ∧ ['S'] ∈ labels then return ['s', 'p', 'a', 'n']
  else if labels.length > 1 ∧ labels.all (fun l => decide (l = ['N'])) then return ['m', 'u', 'l', 't', 'i', 'n', 'u', 'c']
  else .error .value

/-- rs3filewriter.py:28-42, 223-249: the elements emitted for the node at a position.  (A segment without text has no text when it is read back.) -/
def emit (t : PTree) (rels : Dict (List Char) (List Char)) (pos : List Nat) : Except PyErr (List Rs3Xml) :=
  match t.at? pos with
  | none => .error .index
  | some .none => .error .attribute
  | some (.leaf s) => do
    let rp ← relnameAndParent t rels pos
    return [⟨nodeId t pos, rp.map Prod.snd, rp.map Prod.fst, .segment (if s = [] then none else some s)⟩]
  | some (.node label kids) =>
    if label = [] then (if kids.isEmpty then .ok [] else .error .assertion)
    else if isNucLabel label then .ok []
    else do
      let rp ← relnameAndParent t rels pos
      let ty ← groupType (.node label kids)
      return [⟨nodeId t pos, rp.map Prod.snd, rp.map Prod.fst, .group (some ty)⟩]

/-- lexicographic order of tree positions (tuples of numbers) -/
def posLe : List Nat → List Nat → Bool
  | [], _ => true
  | _ :: _, [] => false
  | a :: p, b :: q => if a = b then posLe p q else decide (a < b)

/-- order of relation names (by code point) -/
def nameLe (a b : List Char) : Bool := lexLe (fun (c d : Char) => decide (c.toNat ≤ d.toNat)) a b

/-- is this element a segment? -/
def isSegment (x : Rs3Xml) : Bool := match x.kind with | .segment _ => true | .group _ => false

end Rs3Writer

open Rs3Writer

/-- rs3filewriter.py:77-95, 177-249: the file written for a tree, and the new value of the class attribute `default_relations` (which `gen_relations` updates with the relations
of every written tree), given its current value -/
def writeRs3 (defaults : Dict (List Char) (List Char)) (t : PTree) : Except PyErr (Rs3Doc × Dict (List Char) (List Char)) := do
  let relations ← extractRelations [] t
  let relations := relations.foldl (fun d r => Dict.put d r.1 r.2) defaults
  let rels := (pySorted nameLe (Dict.keys relations)).map (fun n => (n, Dict.find relations n))
  let elems ← mapE (emit t relations) (pySorted posLe t.treepositions)
  return (⟨rels, elems.flatten.filter isSegment ++ elems.flatten.filter (fun x => !isSegment x)⟩, relations)

end Dg
