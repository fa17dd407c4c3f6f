/-
LaTeX export of RST trees (src/discoursegraphs/readwrite/rst/rstlatex.py).
Trees are the nltk-like trees of the RST modules (`PTree`).  `string.Template.substitute` with all placeholders given only inserts the given strings, so
templates are written as concatenations.
Not modelled: writing the file (`RSTLatexFileWriter`, `write_rstlatex` add a final newline), labels that are not strings.
-/
import Verif.Model.Dis
import Verif.Model.Chains

namespace Dg
open DG (mapE)

/-- `"\dirrel"` -/
def dirrelCmd : List Char := ['\\', 'd', 'i', 'r', 'r', 'e', 'l']

/-- `"\multirel"` -/
def multirelCmd : List Char := ['\\', 'm', 'u', 'l', 't', 'i', 'r', 'e', 'l']

/-- readwrite/rst/rstlatex.py:23 `MULTISAT_RELNAME` -/
def multisatRelname : List Char := ['M', 'O', 'N', 'O', 'N', 'U', 'C', '-', 'M', 'U', 'L', 'T', 'I', 'S', 'A', 'T']

/-- readwrite/rst/rstlatex.py:31, 73-75 `is_edu_segment`: neither command occurs in the string -/
def isEduSegment (s : List Char) : Bool := decide (¬ dirrelCmd <:+: s ∧ ¬ multirelCmd <:+: s)

/-- readwrite/rst/rstlatex.py:25, 78-80 `wrap_edu_segment` -/
def wrapEduSegment (s : List Char) : List Char := ['\\', 'r', 's', 't', 's', 'e', 'g', 'm', 'e', 'n', 't', '{'] ++ s ++ ['}']

/-- readwrite/rst/rstlatex.py:95-96, 109-110, 136-137, 151-152: an element is wrapped if it is an EDU -/
def wrapIfEdu (s : List Char) : List Char := if isEduSegment s then wrapEduSegment s else s

/-- readwrite/rst/rstlatex.py:26 `NUC_TEMPLATE` -/
def nucTemplate (s : List Char) : List Char := ['{', '}', '{'] ++ s ++ ['}']

/-- readwrite/rst/rstlatex.py:27 `SAT_TEMPLATE` -/
def satTemplate (rel s : List Char) : List Char := ['{'] ++ rel ++ ['}', '{'] ++ s ++ ['}']

/-- readwrite/rst/rstlatex.py:95-101, 136-142: the segment for an element with the given nuclearity -/
def latexSegment (rel typ elem : List Char) : List Char :=
  if typ = ['N'] then nucTemplate (wrapIfEdu elem) else satTemplate rel (wrapIfEdu elem)

/-- readwrite/rst/rstlatex.py:83-102 `make_nucsat` -/
def makeNucsat (rel : List Char) (types elements : List (List Char)) : Except PyErr (List Char) :=
  match types, elements with
  | [t, u], [a, b] =>
    if (t = ['N'] ∧ u = ['S']) ∨ (t = ['S'] ∧ u = ['N']) then
      .ok (dirrelCmd ++ ['\n', '\t'] ++ latexSegment rel t a ++ ['\n', '\t'] ++ latexSegment rel u b)
    else .error .assertion
  | _, _ => .error .assertion

/-- readwrite/rst/rstlatex.py:29, 105-114 `make_multinuc` -/
def makeMultinuc (rel : List Char) (nuclei : List (List Char)) : List Char :=
  multirelCmd ++ ['{'] ++ rel ++ ['}'] ++ (['\n', '\t'] ++ joinChars ['\n', '\t'] (nuclei.map (fun n => ['{'] ++ wrapIfEdu n ++ ['}'])))

/-- one relation of a bundle: name, types and elements -/
abbrev NucSat := List Char × List (List Char) × List (List Char)

/-- readwrite/rst/rstlatex.py:133-142: the segments of the first relation; `elements[i]` may raise IndexError -/
def firstSegments (rel : List Char) : List (List Char) → List (List Char) → Except PyErr (List (List Char))
  | [], _ => .ok []
  | _ :: _, [] => .error .index
  | t :: ts, e :: es => do
    let rest ← firstSegments rel ts es
    .ok (latexSegment rel t e :: rest)

/-- readwrite/rst/rstlatex.py:145-159, inner loop from element `i` on: the satellites of a further relation are inserted before the nucleus or appended; the state
is the list of segments and `current_nucleus_pos` -/
def addSatellites (rel : List Char) (firstPos : Nat) :
    Nat → List (List Char) → List (List Char) → List (List Char) × Nat → Except PyErr (List (List Char) × Nat)
  | _, [], _, st => .ok st
  | i, t :: ts, es, st =>
    if t = ['N'] then addSatellites rel firstPos (i + 1) ts es st
    else match es[i]? with
      | none => .error .index
      | some e =>
        if i < firstPos then
          addSatellites rel firstPos (i + 1) ts es (st.1.take st.2 ++ satTemplate rel (wrapIfEdu e) :: st.1.drop st.2, st.2 + 1)
        else addSatellites rel firstPos (i + 1) ts es (st.1 ++ [satTemplate rel (wrapIfEdu e)], st.2)

/-- readwrite/rst/rstlatex.py:117-161 `make_multisat` -/
def makeMultisat : List NucSat → Except PyErr (List Char)
  | (rel, types, elements) :: r :: rest =>
    if ['N'] ∈ types then do
      let pos := types.idxOf ['N']
      let segs ← firstSegments rel types elements
      let st ← (r :: rest).foldlM (fun st (x : NucSat) => addSatellites x.1 pos 0 x.2.1 x.2.2 st) (segs, pos)
      .ok (dirrelCmd ++ ['\n', '\t'] ++ joinChars ['\n', '\t'] st.1)
    else .error .value
  | _ => .error .assertion

/-- the characters at which `unicode.splitlines()` breaks a text -/
def isLineBreak (c : Char) : Bool :=
  let n := c.toNat
  (10 ≤ n ∧ n ≤ 13) ∨ (28 ≤ n ∧ n ≤ 30) ∨ n = 0x85 ∨ n = 0x2028 ∨ n = 0x2029

/-- `text.splitlines(True)`: the lines with their terminators; `cur` is the line read so far (reversed).  A carriage return followed by a newline is one
terminator. -/
def latexLinesAux : List Char → List Char → List (List Char)
  | cur, [] => if cur = [] then [] else [cur.reverse]
  | cur, c :: r =>
    if isLineBreak c ∧ ¬ (c = '\r' ∧ r.head? = some '\n') then (c :: cur).reverse :: latexLinesAux [] r else latexLinesAux (c :: cur) r

/-- readwrite/rst/rstlatex.py:206-213 `indent`, `indent_tab` -/
def indentTab (text : List Char) (number : Nat) : List Char := ((latexLinesAux [] text).map (fun l => List.replicate number '\t' ++ l)).flatten

/-- readwrite/rst/rstlatex.py:56-70 `get_node_type` -/
def nodeType : PTree → Except PyErr (List Char)
  | .node label _ => .ok (if label = ['N'] ∨ label = ['S'] then label else ['r', 'e', 'l', 'a', 't', 'i', 'o', 'n'])
  | .leaf _ => .ok ['e', 'd', 'u']
  | .none => .error .value

/-- the children of a tree (iterating over a string yields characters; the code only gets there with trees) -/
def ptreeKids : PTree → List PTree
  | .node _ kids => kids
  | _ => []

/-- `elem.label()` and `elem[0]` of an element of a relation in a bundle (readwrite/rst/rstlatex.py:187-188) -/
def elemLabel : PTree → Except PyErr (List Char)
  | .node label _ => .ok label
  | _ => .error .attribute

/-- `elem[0]` -/
def elemHead : PTree → Except PyErr PTree
  | .node _ (k :: _) => .ok k
  | .node _ [] => .error .index
  | _ => .error .attribute

/-- `u'%s' % tree[0]`: the text of a leaf; `pformat` stands for nltk's rendering of a tree -/
def contentString (pformat : PTree → List Char) : PTree → List Char
  | .leaf s => s
  | .none => ['N', 'o', 'n', 'e']
  | t => pformat t

/-- readwrite/rst/rstlatex.py:164-203 `rsttree2rstlatex`.  `fuel` bounds the recursion depth. -/
def rstLatex (pformat : PTree → List Char) : Nat → PTree → Nat → Except PyErr (List Char)
  | 0, _, _ => .error .recursion
  | fuel + 1, tree, level => do
    match tree with
    | .none => .error .value
    | .leaf s => .ok (joinChars [' '] (splitWs s))
    | .node label kids =>
      if label = ['N'] ∨ label = ['S'] then
        match kids with
        | [] => .error .index
        | k :: _ => .ok (indentTab (['\r', 's', 't', 's', 'e', 'g', 'm', 'e', 'n', 't', '{'] ++ contentString pformat k ++ ['}']) level)
      else do
        let types ← mapE nodeType kids
        if ¬ ∀ t ∈ types, t = ['N'] ∨ t = ['S'] then .error .assertion
        else do
          let strings ← mapE (fun k => rstLatex pformat fuel k (level + 1)) (kids.flatMap ptreeKids)
          if types ≠ [] ∧ ∀ t ∈ types, t = ['N'] then .ok (indentTab (makeMultinuc label strings) level)
          else if label = multisatRelname then do
            let relations := kids.flatMap ptreeKids
            let names ← mapE elemLabel relations
            let typesPer ← mapE (fun r => mapE elemLabel (ptreeKids r)) relations
            let stringsPer ← mapE (fun r => mapE (fun e => do let k ← elemHead e; rstLatex pformat fuel k 0) (ptreeKids r)) relations
            let text ← makeMultisat (names.zip (typesPer.zip stringsPer))
            .ok (indentTab text level)
          else do
            let text ← makeNucsat label types strings
            .ok (indentTab text level)

end Dg
