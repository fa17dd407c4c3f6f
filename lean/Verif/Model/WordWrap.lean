/-
Model of word_wrap_tree (src/discoursegraphs/readwrite/tree.py:272-278) with the parts of Python 2's textwrap module it uses: `dedent`, `fill` (with the default options).
Simplifications: `chunk` is `TextWrapper._split` (the regular expression that splits a text into words and white space, and may also split words at hyphens), a parameter.
-/
import Verif.Model.DisText
import Verif.Model.Spanstring

namespace Dg

/-- `text.expandtabs()`; the number is the column -/
def expandTabs : Nat → List Char → List Char
  | _, [] => []
  | col, c :: cs =>
    if c = '\t' then List.replicate (8 - col % 8) ' ' ++ expandTabs 0 cs
    else c :: expandTabs (if c = '\n' ∨ c = '\r' then 0 else col + 1) cs

/-- `TextWrapper._munge_whitespace` -/
def mungeWhitespace (s : List Char) : List Char := (expandTabs 0 s).map (fun c => if isSpaceChar c then ' ' else c)

/-- a blank or a tab -/
def isBlankTab (c : Char) : Bool := c = ' ' || c = '\t'

/-- the longest common prefix -/
def commonPrefix : List Char → List Char → List Char
  | a :: as, b :: bs => if a = b then a :: commonPrefix as bs else []
  | _, _ => []

/-- `re.sub(r'(?m)^' + margin, '', text)` for one line -/
def cutMargin (margin l : List Char) : List Char := if margin.isPrefixOf l then l.drop margin.length else l

/-- `textwrap.dedent(text)` -/
def dedent (s : List Char) : List Char :=
  let ls := (splitChars '\n' s).map (fun l => if l.all isBlankTab then [] else l)
  match (ls.filter (fun l => decide (l ≠ []))).map (fun l => l.takeWhile isBlankTab) with
  | [] => joinChars ['\n'] ls
  | i :: is => joinChars ['\n'] (ls.map (cutMargin (is.foldl commonPrefix i)))

/-- `chunk.strip() == ''` -/
def blankChunk (c : List Char) : Bool := c.all isUniSpace

/-- the inner loop of `_wrap_chunks`: the chunks that fit on the line, and the others -/
def takeFit (width : Nat) : Nat → List (List Char) → List (List Char) × List (List Char)
  | _, [] => ([], [])
  | len, c :: cs =>
    if len + c.length ≤ width then (c :: (takeFit width (len + c.length) cs).1, (takeFit width (len + c.length) cs).2)
    else ([], c :: cs)

/-- `if self.drop_whitespace and chunks[-1].strip() == '' and lines: del chunks[-1]` -/
def dropFirst (started : Bool) (cs : List (List Char)) : List (List Char) := if started && blankChunk (cs.headD []) then cs.tail else cs

/-- the total length of chunks -/
def chunksLen (cs : List (List Char)) : Nat := (cs.map List.length).sum

/-- `_handle_long_word`: the first chunk is too long for any line -/
def breakLong (width : Nat) (r : List (List Char) × List (List Char)) : List (List Char) × List (List Char) :=
  match r.2 with
  | [] => r
  | c :: cs => if c.length > width then (r.1 ++ [c.take (width - chunksLen r.1)], c.drop (width - chunksLen r.1) :: cs) else r

/-- `if self.drop_whitespace and cur_line and cur_line[-1].strip() == '': del cur_line[-1]` -/
def dropLastBlank (line : List (List Char)) : List (List Char) := if blankChunk (line.getLastD []) then line.dropLast else line

/-- `TextWrapper._wrap_chunks` for a positive width without indentation (the number bounds the rounds; every round uses up characters) -/
def wrapLines (width : Nat) : Nat → Bool → List (List Char) → List (List Char)
  | 0, _, _ => []
  | n + 1, started, cs =>
    if cs = [] then []
    else
      let r := breakLong width (takeFit width 0 (dropFirst started cs))
      let line := dropLastBlank r.1
      if line = [] then wrapLines width n started r.2
      else line.flatten :: wrapLines width n true r.2

/-- tree.py:276-277: the new text of a leaf -/
def wrapLeaf (chunk : List Char → List (List Char)) (width : Int) (s : List Char) : Except PyErr (List Char) :=
  let cs := chunk (mungeWhitespace (stripUni (dedent s)))
  if width ≤ 0 then .error .value
  else .ok (joinChars ['\n'] (wrapLines width.toNat (chunksLen cs + 1) false cs))

mutual
/-- tree.py:275-277: the loop over the leaves (None has no text) -/
def PTree.wrap (f : List Char → Except PyErr (List Char)) : PTree → Except PyErr PTree
  | .leaf s => do let s' ← f s; return .leaf s'
  | .none => .error .type
  | .node l ks => do let ks' ← PTree.wrapAll f ks; return .node l ks'
/-- the loop over the leaves of the children -/
def PTree.wrapAll (f : List Char → Except PyErr (List Char)) : List PTree → Except PyErr (List PTree)
  | [] => .ok []
  | k :: ks => do
    let k' ← PTree.wrap f k
    let ks' ← PTree.wrapAll f ks
    return k' :: ks'
end

/-- tree.py:272-278 `word_wrap_tree`; a string has no `leaves` -/
def wordWrapTree (chunk : List Char → List (List Char)) (t : PTree) (width : Int) : Except PyErr PTree :=
  if width = 0 then .ok t
  else match t with
    | .node _ _ => t.wrap (wrapLeaf chunk width)
    | _ => .error .attribute

end Dg
