/-
Writer and reader for the .dis format at the level of trees (src/discoursegraphs/readwrite/rst/dis/{disfilewriter,distree,common}.py).
Trees are nltk trees without parent pointers; what the code reads through parent pointers (tree position, parent, siblings) is passed down explicitly.
Not modelled here: file access, pretty printing, labels and leaves that are not strings.
-/
import Verif.Model.Rst

namespace Dg

/-- white space as recognised by `unicode.split()` in Python 2 -/
def isUniSpace (c : Char) : Bool :=
  let n := c.toNat
  (9 ≤ n ∧ n ≤ 13) ∨ (28 ≤ n ∧ n ≤ 32) ∨ n = 0x85 ∨ n = 0xa0 ∨ n = 0x1680 ∨ n = 0x180e ∨ (0x2000 ≤ n ∧ n ≤ 0x200a) ∨ n = 0x2028 ∨ n = 0x2029 ∨ n = 0x202f ∨
    n = 0x205f ∨ n = 0x3000

/-- `s.split()`: the maximal pieces without white space; `cur` is the piece read so far (reversed) -/
def splitWsAux : List Char → List Char → List (List Char)
  | cur, [] => if cur = [] then [] else [cur.reverse]
  | cur, c :: r => if isUniSpace c then (if cur = [] then splitWsAux [] r else cur.reverse :: splitWsAux [] r) else splitWsAux (c :: cur) r

/-- `s.split()` -/
def splitWs (s : List Char) : List (List Char) := splitWsAux [] s

mutual
/-- nltk's `tree.treepositions('leaves')`: positions of the leaves from left to right -/
def PTree.leafPositions : PTree → List (List Nat)
  | .leaf _ => [[]]
  | .none => [[]]
  | .node _ kids => PTree.leafPositionsAll 0 kids
/-- the positions of the leaves of the children from number `i` on -/
def PTree.leafPositionsAll (i : Nat) : List PTree → List (List Nat)
  | [] => []
  | k :: ks => (PTree.leafPositions k).map (fun p => i :: p) ++ PTree.leafPositionsAll (i + 1) ks
end

/-- the label of a tree; a string (None) has no method `label` -/
def PTree.label? : PTree → Option (List Char)
  | .node label _ => some label
  | _ => .none

/-- readwrite/rst/dis/disfilewriter.py:159-163 `make_edu` -/
def makeEdu (edu : List Char) : Except PyErr PTree :=
  match splitWs edu with
  | [] => .error .index
  | tok :: toks =>
    let toks := (['_', '!'] ++ tok) :: toks
    return .node ['t', 'e', 'x', 't'] ((toks.dropLast ++ [toks.getLast?.getD [] ++ ['_', '!']]).map PTree.leaf)

/-- `all_leaves.index(pos)`: ValueError if it is not there -/
def positionIndex (allLeaves : List (List Nat)) (pos : List Nat) : Except PyErr Nat :=
  if pos ∈ allLeaves then .ok (allLeaves.idxOf pos) else .error .value

/-- readwrite/rst/dis/disfilewriter.py:77-84, 94-119 `make_span` of the subtree at tree position `pos` (not the root); `allLeaves` are the positions of all leaves of the
document -/
def makeSpan (allLeaves : List (List Nat)) (pos : List Nat) (subtree : PTree) : Except PyErr PTree :=
  match subtree.leafPositions.map (fun p => pos ++ p) with
  | [] => .error .notImplemented
  | [p] => do
    let i ← positionIndex allLeaves p
    return .node ['l', 'e', 'a', 'f'] [.leaf (decimal (i + 1))]
  | p :: ps => do
    let i ← positionIndex allLeaves p
    let j ← positionIndex allLeaves (ps.getLast?.getD [])
    return .node ['s', 'p', 'a', 'n'] [.leaf (decimal (i + 1)), .leaf (decimal (j + 1))]

/-- the node `rel2par` with a relation name -/
def rel2par (name : List Char) : PTree := .node ['r', 'e', 'l', '2', 'p', 'a', 'r'] [.leaf name]

/-- readwrite/rst/dis/disfilewriter.py:122-156 `get_siblings`, `make_rel2par` of a node with the given label; `kids` are all children of its parent, `i` is its own
number.  A child that is a string has no tree position. -/
def makeRel2par (label parentLabel : List Char) (kids : List PTree) (i : Nat) : Except PyErr PTree :=
  if label = ['S'] then .ok (rel2par parentLabel)
  else if label = ['N'] then
    if kids.any (fun k => k.label? = .none) then .error .attribute
    else
      let sibs := (kids.eraseIdx i).map (fun k => k.label?.getD [])
      if sibs = [['S']] then .ok (rel2par ['s', 'p', 'a', 'n'])
      else if sibs.all (fun l => l = ['N']) then .ok (rel2par parentLabel)
      else .error .value
  else .error .value

/-- readwrite/rst/dis/disfilewriter.py:191-197 `convert_label` -/
def convertLabel (label : List Char) : List Char :=
  if label = ['N'] then ['N', 'u', 'c', 'l', 'e', 'u', 's'] else if label = ['S'] then ['S', 'a', 't', 'e', 'l', 'l', 'i', 't', 'e'] else label

mutual
/-- readwrite/rst/dis/disfilewriter.py:60-70, 166-180: `convert` of what the `i`-th child (of the children `sibs` of a node labelled `parentLabel`) at position `pos`
contributes to `get_nucsat_subtrees`: itself, if it is a leaf, nucleus or satellite, otherwise (a relation) its own nuclei and satellites -/
def disConvertAt (allLeaves : List (List Nat)) (pos : List Nat) (parentLabel : List Char) (sibs : List PTree) (i : Nat) : PTree → Except PyErr (List PTree)
  | .leaf s => do
    let edu ← makeEdu s
    return [edu]
  | .none => .error .attribute
  | .node label kids =>
    if label = ['N'] ∨ label = ['S'] then do
      let span ← makeSpan allLeaves pos (.node label kids)
      let rel ← makeRel2par label parentLabel sibs i
      let children ← disConvertKids allLeaves pos label kids 0 kids
      return [.node (convertLabel label) (span :: rel :: children)]
    else disConvertKids allLeaves pos label kids 0 kids
/-- the loops of lines 56-57 and 66-67 over the children from number `i` on -/
def disConvertKids (allLeaves : List (List Nat)) (pos : List Nat) (parentLabel : List Char) (sibs : List PTree) (i : Nat) : List PTree → Except PyErr (List PTree)
  | [] => .ok []
  | k :: rest => do
    let here ← disConvertAt allLeaves (pos ++ [i]) parentLabel sibs i k
    let rest' ← disConvertKids allLeaves pos parentLabel sibs (i + 1) rest
    return here ++ rest'
end

/-- readwrite/rst/dis/disfilewriter.py:52-59 `convert` of a whole tree: line 108 gives the root the span from 1 to the number of leaves -/
def disConvert : PTree → Except PyErr PTree
  | .leaf s => makeEdu s
  | .none => .error .attribute
  | .node label kids => do
    let allLeaves := (PTree.node label kids).leafPositions
    let children ← disConvertKids allLeaves [] label kids 0 kids
    return .node ['R', 'o', 'o', 't'] (.node ['s', 'p', 'a', 'n'] [.leaf ['1'], .leaf (decimal allLeaves.length)] :: children)

/-- the inner part of `_!(.*?)_!` behind an opening mark and the text behind the closing mark (the dot does not match a line break) -/
def closingMark : List Char → Option (List Char × List Char)
  | [] => .none
  | '\n' :: _ => .none
  | '_' :: '!' :: r => some ([], r)
  | c :: r => (closingMark r).map (fun p => (c :: p.1, p.2))

theorem closingMark_length {s inner rest : List Char} (h : closingMark s = some (inner, rest)) : rest.length < s.length := by
  induction s generalizing inner with
  | nil => simp [closingMark] at h
  | cons c s ih =>
    unfold closingMark at h
    split at h
    · simp at h
    · simp at h
    · rename_i r he
      cases he
      cases h
      simp; omega
    · rename_i c' r _ _ he
      cases he
      cases hc : closingMark s with
      | none => rw [hc] at h; cases h
      | some p =>
        obtain ⟨a, b⟩ := p
        rw [hc] at h
        simp at h
        obtain ⟨_, rfl⟩ := h
        have := ih hc
        simp; omega

/-- readwrite/rst/dis/common.py:69 `re.sub('_!(.*?)_!', '\g<1>', edu_str)` -/
def removeMarks : List Char → List Char
  | [] => []
  | c :: r =>
    if c = '_' ∧ r.head? = some '!' then
      match _h : closingMark (r.drop 1) with
      | some (inner, rest) => inner ++ removeMarks rest
      | .none => c :: removeMarks r
    else c :: removeMarks r
termination_by s => s.length
decreasing_by
  · have := closingMark_length _h
    simp at this ⊢
    omega
  · simp
  · simp

/-- readwrite/rst/dis/common.py:65-69 `get_edu_text` -/
def getEduText : PTree → Except PyErr (List Char)
  | .node label kids =>
    if label = ['t', 'e', 'x', 't'] then .ok (removeMarks (joinChars [' '] (PTree.leavesAll kids))) else .error .assertion
  | _ => .error .attribute

/-- the types of subtrees, readwrite/rst/dis/common.py:24-27 -/
inductive DisType
  | root
  | nuc
  | sat
  deriving DecidableEq, Repr

/-- readwrite/rst/dis/common.py:72-83 `get_tree_type` -/
def disTreeType : PTree → Except PyErr DisType
  | .node label _ =>
    if label = ['R', 'o', 'o', 't'] then .ok .root
    else if label = ['N', 'u', 'c', 'l', 'e', 'u', 's'] then .ok .nuc
    else if label = ['S', 'a', 't', 'e', 'l', 'l', 'i', 't', 'e'] then .ok .sat
    else .error .assertion
  | _ => .error .attribute

/-- readwrite/rst/dis/common.py:86-97 `get_node_type` of a node with these children: is it a leaf? -/
def disIsLeafNode : List PTree → Except PyErr Bool
  | [] => .error .index
  | .node label _ :: _ =>
    if label = ['l', 'e', 'a', 'f'] then .ok true else if label = ['s', 'p', 'a', 'n'] then .ok false else .error .assertion
  | _ :: _ => .error .attribute

/-- readwrite/rst/dis/common.py:118-133 `get_relation_type` (if `tree[1]` is a string, its first character; a tree in the place of the name is not modelled) -/
def disRelationType : Option PTree → Except PyErr (List Char)
  | some (.node _ (_ :: .node _ (.leaf name :: _) :: _)) => .ok name
  | some (.node _ (_ :: .node _ (_ :: _) :: _)) => .error .notImplemented
  | some (.node _ (_ :: .leaf (c :: _) :: _)) => .ok [c]
  | some (.node _ _) => .error .index
  | _ => .error .index

/-- readwrite/rst/dis/common.py:136-144 `get_child_types` as the list of the children's types -/
def disChildTypes : List PTree → Except PyErr (List DisType)
  | [] => .ok []
  | k :: ks => do
    let ty ← disTreeType k
    let tys ← disChildTypes ks
    return ty :: tys

/-- readwrite/rst/dis/distree.py:112-116, 131-141: wrap a tree in N or S -/
def disWrap (ty : DisType) (t : PTree) : PTree := .node (if ty = .nuc then ['N'] else ['S']) [t]

/-- a list of results as the result of a list comprehension -/
def allResults : List (Except PyErr PTree) → Except PyErr (List PTree)
  | [] => .ok []
  | r :: rs => do
    let t ← r
    let ts ← allResults rs
    return t :: ts

/-- readwrite/rst/dis/distree.py:76-108: the relation below a node, given its children (nuclei and satellites) and the results of `dis2tree` on them -/
def disRelation (children : List PTree) (results : List (Except PyErr PTree)) : Except PyErr PTree := do
  let tys ← disChildTypes children
  if tys.eraseDups.length = 1 then
    if .nuc ∉ tys then .error .assertion
    else if ¬ tys.count .nuc > 1 then .error .assertion
    else
      let subtrees ← allResults results
      let reltype ← disRelationType children[0]?
      return .node reltype subtrees
  else if tys.eraseDups.length ≠ 2 then .error .assertion
  else if ¬ (.nuc ∈ tys ∧ .sat ∈ tys) then .error .assertion
  else if ¬ (tys.count .nuc = 1 ∧ tys.count .sat = 1) then .error .assertion
  else
    let nucId := tys.idxOf .nuc
    let satId := tys.idxOf .sat
    let nuc ← (results[nucId]?).getD (.error .index)
    let sat ← (results[satId]?).getD (.error .index)
    let reltype ← disRelationType children[satId]?
    if nucId < satId then return .node reltype [nuc, sat] else return .node reltype [sat, nuc]

mutual
/-- readwrite/rst/dis/distree.py:66-128 `dis2tree`, `leaf2tree` -/
def dis2tree (wrapTree : Bool) : PTree → Except PyErr PTree
  | .leaf _ => .error .attribute
  | .none => .error .attribute
  | .node label kids => do
    let ty ← disTreeType (.node label [])
    if ← disIsLeafNode kids then
      match kids[2]? with
      | .none => .error .index
      | some text => do
        let edu ← getEduText text
        return disWrap ty (.leaf edu)
    else
      let n := if ty = .root then 1 else 2
      let t ← disRelation (kids.drop n) ((dis2treeAll kids).drop n)
      return if wrapTree then disWrap ty t else t
/-- the results of `dis2tree(child, wrap_tree=True)` on the children; only those the code asks for are looked at -/
def dis2treeAll : List PTree → List (Except PyErr PTree)
  | [] => []
  | k :: ks => dis2tree true k :: dis2treeAll ks
end

end Dg
