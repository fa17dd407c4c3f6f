/-
The text of .dis files: reading (DisFile in src/discoursegraphs/readwrite/rst/dis/common.py, CodraRSTTree in codra.py) and writing (to_dis_format in disfilewriter.py), with nltk's parser and printer of
bracketed trees (nltk/tree.py, version 3: `Tree.fromstring`, `Tree.pformat`), which they are made of.
Not modelled: encoding, temporary files.
-/
import Verif.Model.Dis
import Verif.Model.ConllRead
import Verif.Model.RstLatex

namespace Dg

/-- `\s` in a regular expression without the flag UNICODE -/
def isReSpace (c : Char) : Bool := (9 ≤ c.toNat ∧ c.toNat ≤ 13) ∨ c.toNat = 32

/-- `[^\s\(\)]` -/
def isReWord (c : Char) : Bool := !isReSpace c && c ≠ '(' && c ≠ ')'

/-- the matches of nltk's regular expression for trees: an opening bracket with a label, a closing bracket, a leaf -/
inductive BTok
  | openB (label : List Char)
  | closeB
  | word (w : List Char)
  deriving DecidableEq

theorem dropWhile_length_le (p : Char → Bool) (s : List Char) : (s.dropWhile p).length ≤ s.length := (List.dropWhile_suffix p).length_le

/-- nltk `Tree.fromstring`: `token_re.finditer(s)` for the expression `\(\s*([^\s\(\)]+)?|\)|([^\s\(\)]+)`; the label is `token[1:].lstrip()` -/
def bracketTokens : List Char → List BTok
  | [] => []
  | c :: r =>
    if c = '(' then .openB (((r.dropWhile isReSpace).takeWhile isReWord).dropWhile isUniSpace) :: bracketTokens ((r.dropWhile isReSpace).dropWhile isReWord)
    else if c = ')' then .closeB :: bracketTokens r
    else if isReSpace c then bracketTokens r
    else .word (c :: r.takeWhile isReWord) :: bracketTokens (r.dropWhile isReWord)
termination_by s => s.length
decreasing_by
  · have h1 := dropWhile_length_le isReWord (r.dropWhile isReSpace)
    have h2 := dropWhile_length_le isReSpace r
    simp only [List.length_cons]
    omega
  · simp
  · simp
  · have h1 := dropWhile_length_le isReWord r
    simp only [List.length_cons]
    omega

/-- nltk `Tree.fromstring`: the loop over the matches; `stack` are the unfinished trees (the innermost one first) and `top` the finished trees at the top -/
def bracketParse : List (List Char × List PTree) → List PTree → List BTok → Except PyErr PTree
  | [], [t], [] => .ok t
  | _, _, [] => .error .value
  | [], top, .openB l :: ts => if top = [] then bracketParse [(l, [])] top ts else .error .value
  | s :: st, top, .openB l :: ts => bracketParse ((l, []) :: s :: st) top ts
  | [], _, .closeB :: _ => .error .value
  | [s], top, .closeB :: ts => bracketParse [] (top ++ [.node s.1 s.2]) ts
  | s :: s' :: st, top, .closeB :: ts => bracketParse ((s'.1, s'.2 ++ [.node s.1 s.2]) :: st) top ts
  | [], _, .word _ :: _ => .error .value
  | s :: st, top, .word w :: ts => bracketParse ((s.1, s.2 ++ [.leaf w]) :: st) top ts

/-- nltk `ParentedTree.fromstring(s)` -/
def treeFromString (s : List Char) : Except PyErr PTree := bracketParse [] [] (bracketTokens s)

/-- `re.sub(pat, rep, s)` for a literal pattern: `n` characters of a match are still to be skipped -/
def subLit (pat rep : List Char) : Nat → List Char → List Char
  | _, [] => []
  | n + 1, _ :: r => subLit pat rep n r
  | 0, c :: r => if pat.isPrefixOf (c :: r) then rep ++ subLit pat rep (pat.length - 1) r else c :: subLit pat rep 0 r

/-- the inner part of `_!(.*?)_!` behind an opening mark and the text behind the closing mark; the dot does not match characters with the property `stop` -/
def closeMark (stop : Char → Bool) : List Char → Option (List Char × List Char)
  | [] => .none
  | c :: r =>
    if c = '_' ∧ r.head? = some '!' then some ([], r.drop 1)
    else if stop c then .none
    else (closeMark stop r).map (fun p => (c :: p.1, p.2))

theorem closeMark_length {stop : Char → Bool} {s inner rest : List Char} (h : closeMark stop s = some (inner, rest)) : rest.length < s.length := by
  induction s generalizing inner with
  | nil => cases h
  | cons c s ih =>
    unfold closeMark at h
    split at h
    · cases h
      simp
      omega
    · split at h
      · cases h
      · cases hc : closeMark stop s with
        | none => rw [hc] at h; cases h
        | some p =>
          rw [hc] at h
          obtain ⟨a, b⟩ := p
          cases h
          have : b.length < s.length := ih hc
          simp only [List.length_cons]
          omega

/-- `re.sub('_!(.*?)_!', f, s)` -/
def subMarks (stop : Char → Bool) (f : List Char → List Char) : List Char → List Char
  | [] => []
  | c :: r =>
    if c = '_' ∧ r.head? = some '!' then
      match _h : closeMark stop (r.drop 1) with
      | some (inner, rest) => f (['_', '!'] ++ inner ++ ['_', '!']) ++ subMarks stop f rest
      | .none => c :: subMarks stop f r
    else c :: subMarks stop f r
termination_by s => s.length
decreasing_by
  · have := closeMark_length _h
    simp at this ⊢
    omega
  · simp
  · simp

/-- `-LRB-` -/
def lrb : List Char := ['-', 'L', 'R', 'B', '-']
/-- `-RRB-` -/
def rrb : List Char := ['-', 'R', 'R', 'B', '-']
/-- `)//TT_ERR` -/
def ttErr : List Char := [')', '/', '/', 'T', 'T', '_', 'E', 'R', 'R']

/-- readwrite/rst/dis/common.py:147-156 `fix_rst_treebank_tree_str` -/
def fixTreeStr (s : List Char) : List Char := subLit ttErr [')'] 0 s

/-- readwrite/rst/dis/common.py:164-168 `replace_brackets` -/
def replaceBrackets (edu : List Char) : List Char := subLit [')'] rrb 0 (subLit ['('] lrb 0 edu)

/-- readwrite/rst/dis/common.py:159-170 `convert_parens_in_rst_tree_str` -/
def convertParens (s : List Char) : List Char := subMarks (fun c => c = '\n') replaceBrackets s

/-- readwrite/rst/dis/common.py:48-52: the text of a leaf -/
def restoreBrackets (leaf : List Char) : List Char := subLit rrb [')'] 0 (subLit lrb ['('] 0 leaf)

mutual
/-- the tree with changed leaves -/
def PTree.mapLeaves (f : List Char → List Char) : PTree → PTree
  | .leaf s => .leaf (f s)
  | .none => .none
  | .node l ks => .node l (PTree.mapLeavesAll f ks)
/-- the trees with changed leaves -/
def PTree.mapLeavesAll (f : List Char → List Char) : List PTree → List PTree
  | [] => []
  | k :: ks => PTree.mapLeaves f k :: PTree.mapLeavesAll f ks
end

/-- readwrite/rst/dis/common.py:38-52 `DisFile(path).tree` for a file with content `s` -/
def disFile (s : List Char) : Except PyErr PTree := do
  let t ← treeFromString (convertParens (fixTreeStr (stripUni s)))
  .ok (t.mapLeaves restoreBrackets)

/-- readwrite/rst/dis/distree.py:25-34 `DisRSTTree(path).tree` (without word wrap) for a file with content `s` -/
def readDistree (s : List Char) : Except PyErr PTree := do
  let t ← disFile s
  dis2tree false t

/-- `EDU_START_RE.sub("", s)`, codra.py:9 -/
def dropStartMark : List Char → List Char
  | '_' :: '!' :: r => r
  | s => s

/-- `EDU_END_RE.sub("", s)`, codra.py:10; `$` also matches before a line break at the end -/
def dropEndMark : List Char → List Char
  | [] => []
  | c :: r => if c = '_' ∧ r = ['!'] then [] else if c = '_' ∧ r = ['!', '\n'] then ['\n'] else c :: dropEndMark r

/-- codra.py:11: three backslashes and a double quote -/
def tripleEscape : List Char := ['\\', '\\', '\\', '"']

/-- readwrite/rst/dis/codra.py:27-33: the text of a leaf -/
def codraEdu (s : List Char) : List Char := dropEndMark (subLit tripleEscape ['"'] 0 (dropStartMark s))

/-- readwrite/rst/dis/codra.py:14-33 `CodraRSTTree(path).tree` -/
def readCodra (s : List Char) : Except PyErr PTree := do
  let t ← readDistree s
  .ok (t.mapLeaves codraEdu)

mutual
/-- nltk `Tree._pformat_flat('', '()', False)`, and a leaf -/
def PTree.flatForm : PTree → List Char
  | .leaf s => s
  | .none => ['N', 'o', 'n', 'e']
  | .node l ks => '(' :: l ++ ' ' :: joinChars [' '] (PTree.flatForms ks) ++ [')']
/-- the same for children -/
def PTree.flatForms : List PTree → List (List Char)
  | [] => []
  | k :: ks => PTree.flatForm k :: PTree.flatForms ks
end

mutual
/-- nltk `Tree.pformat(margin=70, indent=n, nodesep='', parens='()', quotes=False)`, and a leaf -/
def PTree.pformat (n : Nat) : PTree → List Char
  | .leaf s => s
  | .none => ['N', 'o', 'n', 'e']
  | .node l ks =>
    if (PTree.node l ks).flatForm.length + n < 70 then (PTree.node l ks).flatForm
    else '(' :: l ++ PTree.pformats (n + 2) ks ++ [')']
/-- the children, each in a new line with `n` blanks -/
def PTree.pformats (n : Nat) : List PTree → List Char
  | [] => []
  | k :: ks => '\n' :: List.replicate n ' ' ++ PTree.pformat n k ++ PTree.pformats n ks
end

/-- `text.splitlines()` -/
def uniLines (s : List Char) : List (List Char) := (latexLinesAux [] s).map (fun l => l.filter (fun c => !isLineBreak c))

/-- readwrite/rst/dis/disfilewriter.py:200-204 `join_lines` -/
def joinLines (s : List Char) : List Char := (joinChars [' '] ((uniLines s).map stripUni)).filter (fun c => c ≠ '\n')

/-- readwrite/rst/dis/disfilewriter.py:30-33 `to_dis_format` (with DOTALL the dot matches all characters) -/
def toDisFormat (t : PTree) : List Char := subMarks (fun _ => false) joinLines (t.pformat 0)

/-- readwrite/rst/dis/disfilewriter.py:18-28 the content of the file that `write_dis(tree, path)` writes -/
def writeDis (t : PTree) : Except PyErr (List Char) := do
  let d ← disConvert t
  .ok (toDisFormat d)

end Dg
