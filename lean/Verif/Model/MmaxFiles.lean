/-
The files of an MMAX2 project: `MMAXProject`, `get_file_id`, `get_word_file` and the file names in `MMAXDocumentGraph` (src/discoursegraphs/readwrite/mmax2.py).
Not modelled: `expanduser`; the path of the base file is an absolute one without `.` and `..` (the result of `abspath`).
-/
import Verif.Model.Mmax

namespace Dg

/-- What the XML parser finds in a file: the element `X_path` for each `X` (and its text), the `<level>` elements (attributes, text), `<stylesheet>`, `<words>`, all `<word>` elements, and the attributes of the children of the root. -/
structure MmaxFile where
  pathElem : String → Option (Option String)
  levels : List (XAttrs × Option String)
  stylesheet : Option (Option String)
  wordsElem : Option (Option String)
  words : List MmaxWord
  children : List XAttrs

/-- the files of a file system that can be parsed -/
abbrev MmaxFs := List Char → Option MmaxFile

/-- `os.path.join(a, b)` (Python 2.7, POSIX) -/
def posixJoin (a b : List Char) : List Char :=
  if b.head? = some '/' then b
  else if a = [] ∨ a.getLast? = some '/' then a ++ b
  else a ++ '/' :: b

/-- `os.path.split(path)[0]` (Python 2.7, POSIX): up to the last slash, without slashes at the end unless there is nothing else -/
def posixDir (p : List Char) : List Char :=
  let head := (p.reverse.dropWhile (fun c => c ≠ '/')).reverse
  if head.all (fun c => c = '/') then head else (head.reverse.dropWhile (fun c => c = '/')).reverse

/-- `etree.parse(path)`: IOError for a missing file.  Simplification: so are syntax errors in the file. -/
def mmaxParse (fs : MmaxFs) (path : List Char) : Except PyErr MmaxFile :=
  match fs path with
  | some f => .ok f
  | none => .error .io

/-- an MMAX2 project (`MMAXProject`): its paths, and the file extensions of its levels.  (The other features of a level and the style sheet are not used.) -/
structure MmaxCommon where
  basedata : List Char
  markable : List Char
  extensions : Dict String (List Char)

/-- mmax2.py:65-66: the path for a type of files: the project's if the element is empty -/
def mmaxPathOf (root : List Char) (f : MmaxFile) (var : String) : Except PyErr (List Char) :=
  match f.pathElem var with
  | none => .error .attribute
  | some none => .ok root
  | some (some t) => .ok (if t = "" then root else t.toList)

/-- mmax2.py:70-74: the body of the loop over the levels.  TypeError if the element has no text. -/
def mmaxLevelExt (d : Dict String (List Char)) (l : XAttrs × Option String) : Except PyErr (Dict String (List Char)) := do
  let _ ← elemAttr l.1 "schemefile"
  let _ ← elemAttr l.1 "customization_file"
  match l.2 with
  | none => .error .type
  | some t =>
    let n ← elemAttr l.1 "name"
    return Dict.put d n t.toList.tail

/-- mmax2.py:33-77 `_parse_common_paths_file` -/
def mmaxCommon (fs : MmaxFs) (root : List Char) : Except PyErr MmaxCommon := do
  let f ← mmaxParse fs (posixJoin root "common_paths.xml".toList)
  let basedata ← mmaxPathOf root f "basedata"
  let _ ← mmaxPathOf root f "scheme"
  let _ ← mmaxPathOf root f "style"
  let _ ← mmaxPathOf root f "customization"
  let markable ← mmaxPathOf root f "markable"
  let exts ← f.levels.foldlM mmaxLevelExt []
  match f.stylesheet with
  | none => .error .attribute
  | some _ => return ⟨basedata, markable, exts⟩

/-- mmax2.py:237-245 `get_word_file`.  AttributeError if there is no element `<words>`, or if it is empty. -/
def mmaxWordFile (root : List Char) (c : MmaxCommon) (f : MmaxFile) : Except PyErr (List Char) :=
  match f.wordsElem with
  | none => .error .attribute
  | some none => .error .attribute
  | some (some t) => .ok (posixJoin (posixJoin root c.basedata) t.toList)

/-- the path of the file with the markables of a level, mmax2.py:153-157 (and 196-198) -/
def mmaxLevelFile (root : List Char) (c : MmaxCommon) (fid level : String) : List Char :=
  posixJoin (posixJoin root c.markable) (fid.toList ++ (Dict.find c.extensions level).getD [])

/-- the project of a base file: mmax2.py:133-137 and what is read from its files -/
def mmaxProject (fs : MmaxFs) (base : String) : Except PyErr MmaxProject := do
  let root := posixDir base.toList
  let c ← mmaxCommon fs root
  let b ← mmaxParse fs base.toList
  let wf ← mmaxWordFile root c b
  let w ← mmaxParse fs wf
  return ⟨base, w.words, Dict.keys c.extensions, fun fid level => (fs (mmaxLevelFile root c fid level)).map (·.children)⟩

/-- `MMAXDocumentGraph(mmax_base_file, …)`, mmax2.py:95-167: from the files to the graph -/
def mmaxReadFiles (fs : MmaxFs) (name : Option String) (ns : String) (precedence connected ignore : Bool) (base : String) (order : List String) : Except PyErr DG := do
  let p ← mmaxProject fs base
  DG.mmaxRead name ns precedence connected ignore p order

end Dg
