/-
Converters for the output of RST parsers: HILDA, StageDP and DPLP
(src/discoursegraphs/readwrite/rst/{hilda,stagedp,dplp}.py).
Not modelled: reading the files, Python's `eval` of the printed trees and `Tree.fromstring` (the models start from the nltk tree),
`word_wrap_tree` (identity for the default width).  The code transforms the trees in place; the models return the transformed tree.
-/
import Verif.Model.Text
import Verif.Spec.Rst

namespace Dg

/-- the nuclearity of a letter: the group `(N|S)` of a regular expression -/
def nucOf (c : Char) : Option Nuc := if c = 'N' then some .N else if c = 'S' then some .S else .none

/-- `(.*)$` at the end of a regular expression: the dot does not match a line break and the dollar sign also matches before a line break at the very end -/
def dotStarEnd (s : List Char) : Option (List Char) :=
  if '\n' ∈ s then
    (if s.getLast? = some '\n' ∧ '\n' ∉ s.dropLast then some s.dropLast else .none)
  else some s

/-- readwrite/rst/hilda.py:21 and 85-87: `HILDA_REL_RE = ^(.*)\[(N|S)\]\[(N|S)\]$` matched against a label -/
def hildaRel (label : List Char) : Option (List Char × Nuc × Nuc) :=
  match (if label.getLast? = some '\n' then label.dropLast else label).reverse with
  | c1 :: y :: c2 :: c3 :: x :: c4 :: r =>
    if c1 = ']' ∧ c2 = '[' ∧ c3 = ']' ∧ c4 = '[' ∧ '\n' ∉ r then
      match nucOf x, nucOf y with
      | some x, some y => some (r.reverse, x, y)
      | _, _ => .none
    else .none
  | _ => .none

/-- readwrite/rst/stagedp.py:21 and 106-108, readwrite/rst/dplp.py:20 and 113-115: `^(N|S)(N|S)-(.*)$` matched against a label -/
def stagedpRel (label : List Char) : Option (Nuc × Nuc × List Char) :=
  match label with
  | x :: y :: '-' :: r =>
    match nucOf x, nucOf y, dotStarEnd r with
    | some x, some y, some name => some (x, y, name)
    | _, _, _ => .none
  | _ => .none

/-- readwrite/rst/hilda.py:62-93 `transform` -/
def hildaTransform : PTree → Except PyErr PTree
  | .leaf s => .ok (.leaf s)
  | .none => .ok .none
  | .node label [l, r] => do
    match hildaRel label with
    | .none => .error .assertion
    | some (relname, x, y) => do
      let l' ← hildaTransform l
      let r' ← hildaTransform r
      return .node relname [.node x.label [l'], .node y.label [r']]
  | .node _ _ => .error .assertion

/-- readwrite/rst/stagedp.py:55-59 `cleanup_edu_text` -/
def cleanupEduText (text : List Char) : List Char :=
  joinChars [' '] ((splitChars '_' ((text.take (text.length - 2)).drop 2)).filter (fun tok => tok ≠ ['<', 'P', '>'] ∧ tok ≠ ['<', 'S', '>']))

mutual
/-- readwrite/rst/stagedp.py:50-53: the loop that replaces every leaf of the parsed tree (each leaf is replaced by a string that depends on that leaf only) -/
def cleanupLeaves : PTree → PTree
  | .leaf s => .leaf (cleanupEduText s)
  | .none => .none
  | .node label kids => .node label (cleanupLeavesAll kids)
/-- the same for a list of trees -/
def cleanupLeavesAll : List PTree → List PTree
  | [] => []
  | t :: ts => cleanupLeaves t :: cleanupLeavesAll ts
end

/-- readwrite/rst/stagedp.py:65-116 `transform` -/
def stagedpTransform (isTreeRoot : Bool) : PTree → Except PyErr PTree
  | .leaf s => .ok (.leaf s)
  | .none => .ok .none
  | .node label [k] =>
    if label ≠ ['E', 'D', 'U'] then .error .assertion
    else if isTreeRoot then .ok (.node ['N'] [k])
    else .ok k
  | .node label [l, r] =>
    match stagedpRel label with
    | .none => .error .assertion
    | some (x, y, relname) => do
      let l' ← stagedpTransform false l
      let r' ← stagedpTransform false r
      return .node relname [.node x.label [l'], .node y.label [r']]
  | .node _ _ => .error .value

/-- readwrite/rst/stagedp.py:30-34, 36-53, 61-120: from the parsed tree to the final tree -/
def readStagedp (fileTree : PTree) : Except PyErr PTree := stagedpTransform true (cleanupLeaves fileTree)

/-- whitespace of Python 2 byte strings -/
def isSpaceByte (c : Char) : Bool := c = ' ' ∨ c = '\t' ∨ c = '\n' ∨ c = '\r' ∨ c = '\x0b' ∨ c = '\x0c'

/-- `s.strip()` -/
def stripChars (s : List Char) : List Char := ((s.dropWhile isSpaceByte).reverse.dropWhile isSpaceByte).reverse

/-- `int(s)`: blanks around, an optional sign, decimal digits -/
def pyIntE (s : List Char) : Except PyErr Int :=
  match stripChars s with
  | '-' :: d => if d ≠ [] ∧ d.all isDigitChar then .ok (-(parseDec d : Int)) else .error .value
  | '+' :: d => if d ≠ [] ∧ d.all isDigitChar then .ok (parseDec d : Int) else .error .value
  | d => if d ≠ [] ∧ d.all isDigitChar then .ok (parseDec d : Int) else .error .value

/-- `s.splitlines()` of a byte string: lines end at `\n`, `\r` or `\r\n`; `cur` is the line read so far (reversed) -/
def splitLinesAux : List Char → List Char → List (List Char)
  | cur, [] => if cur = [] then [] else [cur.reverse]
  | cur, '\r' :: '\n' :: r => cur.reverse :: splitLinesAux [] r
  | cur, c :: r => if c = '\n' ∨ c = '\r' then cur.reverse :: splitLinesAux [] r else splitLinesAux (c :: cur) r

/-- `s.splitlines()` -/
def splitLines (s : List Char) : List (List Char) := splitLinesAux [] s

/-- readwrite/rst/dplp.py:77-81: the loop over the lines of the merge file; `edus` maps EDU IDs to the tokens seen so far -/
def extractEdusLoop : Dict Int (List (List Char)) → List (List Char) → Except PyErr (Dict Int (List (List Char)))
  | edus, [] => .ok edus
  | edus, line :: lines =>
    if stripChars line = [] then extractEdusLoop edus lines
    else
      match (splitChars '\t' line)[2]? with
      | .none => .error .index
      | some token =>
        match (splitChars '\t' line)[9]? with
        | .none => .error .index
        | some idStr => do
          let eduId ← pyIntE idStr
          extractEdusLoop (edus.put eduId ((edus.find eduId).getD [] ++ [token])) lines

/-- readwrite/rst/dplp.py:66-82 `extract_edus` -/
def extractEdus (mergeFile : List Char) : Except PyErr (Dict Int (List (List Char))) := extractEdusLoop [] (splitLines mergeFile)

/-- readwrite/rst/dplp.py:89 and 92: the text of an EDU; `edus` is a defaultdict, an unknown ID gives no tokens -/
def eduText (edus : Dict Int (List (List Char))) (id : Int) : List Char := joinChars [' '] ((edus.find id).getD [])

mutual
/-- readwrite/rst/dplp.py:84-96 `add_edus` below the root: the node above a leaf is replaced by the text of the EDU -/
def addEdusBelow (edus : Dict Int (List (List Char))) : PTree → Except PyErr PTree
  | .leaf s => .ok (.leaf s)
  | .none => .ok .none
  | .node label kids => do
    match ← addEdusKids edus kids with
    | .inl kids' => return .node label kids'
    | .inr text => return .leaf text
/-- readwrite/rst/dplp.py:87-92: the children of a node that is not the root, left to right.  At the first leaf the node itself becomes a string (`.inr`); indexing
that string with the position of a further leaf raises a TypeError.  Leaves that are not strings are not modelled (`int(None)` would be a TypeError). -/
def addEdusKids (edus : Dict Int (List (List Char))) : List PTree → Except PyErr (List PTree ⊕ List Char)
  | [] => .ok (.inl [])
  | .leaf s :: rest => do
    let id ← pyIntE s
    if (PTree.leavesAll rest) ≠ [] then .error .type else return .inr (eduText edus id)
  | t :: rest => do
    let t' ← addEdusBelow edus t
    match ← addEdusKids edus rest with
    | .inl rest' => return .inl (t' :: rest')
    | .inr text => return .inr text
end

/-- readwrite/rst/dplp.py:87-96: the children of the root, left to right; the parent position of a leaf is `()` and nltk raises an IndexError when it is assigned to -/
def addEdusRoot (edus : Dict Int (List (List Char))) (label : List Char) (nLeaves : Nat) : List PTree → Except PyErr (List Char × List PTree)
  | [] => .ok (label, [])
  | .leaf s :: rest => do
    let id ← pyIntE s
    if nLeaves ≠ 1 then .error .assertion
    else return (['N'], .leaf (eduText edus id) :: rest)
  | t :: rest => do
    let t' ← addEdusBelow edus t
    let (label', rest') ← addEdusRoot edus label nLeaves rest
    return (label', t' :: rest')

/-- readwrite/rst/dplp.py:84-96 `add_edus` (a string has no `treepositions`: AttributeError) -/
def addEdus (edus : Dict Int (List (List Char))) : PTree → Except PyErr PTree
  | .node label kids => do
    let (label', kids') ← addEdusRoot edus label (PTree.leavesAll kids).length kids
    return .node label' kids'
  | _ => .error .attribute

/-- readwrite/rst/dplp.py:102-121 `transform` -/
def dplpTransform : PTree → Except PyErr PTree
  | .leaf s => .ok (.leaf s)
  | .none => .ok .none
  | .node label [k] => .ok (.node label [k])
  | .node label [l, r] =>
    match stagedpRel label with
    | .none => .error .assertion
    | some (x, y, relname) => do
      let l' ← dplpTransform l
      let r' ← dplpTransform r
      return .node relname [.node x.label [l'], .node y.label [r']]
  | .node _ _ => .error .assertion

/-- readwrite/rst/dplp.py:26-37: from the merge file and the parsed tree to the final tree -/
def readDplp (mergeFile : List Char) (parsetree : PTree) : Except PyErr PTree := do
  let edus ← extractEdus mergeFile
  let t ← addEdus edus parsetree
  dplpTransform t

end Dg
