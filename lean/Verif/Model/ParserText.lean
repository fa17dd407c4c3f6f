/-
The text of the files of three RST parsers: StageDP (stagedp.py), Heilman and Sagae 2015 (heilman_sagae_2015.py), DPLP (dplp.py).
Not modelled: file access, json.load (its result is given), Python's `eval` (a parameter).
-/
import Verif.Model.DisText
import Verif.Model.Rst
import Verif.Model.Hs2015

namespace Dg

/-- readwrite/rst/stagedp.py:27-34, 36-53: StageDPRSTTree of a file with the content `s` (without word wrap) -/
def readStagedpText (s : List Char) : Except PyErr PTree := do
  let t ← treeFromString s
  readStagedp t

/-- the JSON file of the parser of Heilman and Sagae: the tokens of the EDUs, and for each parse its tree as a string (`none`: the key is missing) -/
structure HsJson where
  eduTokens : Option (List (List (List Char)))
  trees : Option (List (Option (List Char)))

/-- a value that must be there: `d[key]` -/
def needKey {α : Type} : Option α → Except PyErr α
  | some x => .ok x
  | .none => .error .key

/-- readwrite/rst/heilman_sagae_2015.py:58-65, 179-201: HS2015RSTTree of a file (without word wrap): the first parse is taken -/
def readHs2015Json (j : HsJson) : Except PyErr PTree := do
  let edus ← needKey j.eduTokens
  let trees ← needKey j.trees
  match trees with
  | [] => .error .index
  | first :: _ => do
    let s ← needKey first
    let t ← treeFromString s
    readHs2015 edus t

/-- `s.split(pat, 1)` for a pattern that is not empty: the text before the first occurrence and behind it; `none` if there is no occurrence -/
def splitOnce (pat : List Char) : List Char → Option (List Char × List Char)
  | [] => .none
  | c :: r => if pat.isPrefixOf (c :: r) then some ([], (c :: r).drop pat.length) else (splitOnce pat r).map (fun p => (c :: p.1, p.2))

/-- `'ParentedTree'` -/
def parentedTree : List Char := ['P', 'a', 'r', 'e', 'n', 't', 'e', 'd', 'T', 'r', 'e', 'e']

/-- readwrite/rst/dplp.py:39-45 `split_input`: ValueError if there is nothing to unpack -/
def splitInput (s : List Char) : Except PyErr (List Char × List Char) :=
  match splitOnce parentedTree s with
  | .none => .error .value
  | some (m, r) => .ok (m, parentedTree ++ r)

/-- readwrite/rst/dplp.py:26-37, 48-63: DPLPRSTTree of a file with the content `s` (without word wrap); `eval` is Python's evaluation of the expression for the tree -/
def readDplpText (eval : List Char → Except PyErr PTree) (s : List Char) : Except PyErr PTree := do
  let (m, p) ← splitInput s
  let t ← eval (subLit parentedTree ['T', 'r', 'e', 'e'] 0 p)
  readDplp m t

end Dg
