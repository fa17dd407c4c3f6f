/-
Specification of the files of an MMAX2 project (C82).
-/
import Mathlib.Data.List.Forall2
import Verif.Model.MmaxFiles
import Verif.Spec.Mmax

namespace Dg

/-- the file `name` in the folder that an element of the common paths file gives, for a project in the directory `root`: the directory itself if the element is empty; otherwise a path below the directory (with or without a slash at the end), or an absolute path -/
inductive InFolder (root : List Char) : Option String → List Char → List Char → Prop
  | none (name) : InFolder root none name (root ++ '/' :: name)
  | empty (name) : InFolder root (some "") name (root ++ '/' :: name)
  | sub (t : String) (name) : t ≠ "" → t.toList.head? ≠ some '/' → t.toList.getLast? ≠ some '/' → InFolder root (some t) name (root ++ '/' :: (t.toList ++ '/' :: name))
  | slash (t : String) (name) : t ≠ "" → t.toList.head? ≠ some '/' → t.toList.getLast? = some '/' → InFolder root (some t) name (root ++ '/' :: (t.toList ++ name))
  | absolute (t : String) (name) : t.toList.head? = some '/' → t.toList.getLast? ≠ some '/' → InFolder root (some t) name (t.toList ++ '/' :: name)

/-- a `<level>` element with the name of the level and the file extension (which is given after a `$`, or some other character) -/
structure IsLevel (x : XAttrs × Option String) (l : String × List Char) : Prop where
  name : Dict.find x.1 "name" = some l.1
  schemefile : "schemefile" ∈ Dict.keys x.1
  customization : "customization_file" ∈ Dict.keys x.1
  text : ∃ (t : String) (c : Char), x.2 = some t ∧ t.toList = c :: l.2

/-- the common paths file `f` gives the folders and the levels of the project -/
structure IsCommon (f : MmaxFile) (basedata markable : Option String) (levels : List (String × List Char)) : Prop where
  hasBasedata : f.pathElem "basedata" = some basedata
  hasMarkable : f.pathElem "markable" = some markable
  others : ∀ v ∈ ["scheme", "style", "customization"], f.pathElem v ≠ none
  hasLevels : List.Forall₂ IsLevel f.levels levels
  names : (levels.map Prod.fst).Nodup
  stylesheet : f.stylesheet ≠ none

/-- a directory with an absolute path, not the root directory -/
structure IsRoot (root : List Char) : Prop where
  absolute : root.head? = some '/'
  plain : root.getLast? ≠ some '/'

/-- the names of files: not empty, and not absolute -/
def IsFileName (n : List Char) : Prop := n ≠ [] ∧ n.head? ≠ some '/'

/-- the project in the directory `root`, with the base file `root/id.mmax`, and the words `words` -/
structure MmaxFs.HasProject (fs : MmaxFs) (root id : List Char) (markable : Option String) (levels : List (String × List Char)) (words : List MmaxWord) : Prop where
  isRoot : IsRoot root
  plainId : '/' ∉ id
  files : ∃ basedata f b w wordsFile wpath, fs (root ++ '/' :: "common_paths.xml".toList) = some f ∧ IsCommon f basedata markable levels ∧
    fs (root ++ '/' :: (id ++ ".mmax".toList)) = some b ∧ b.wordsElem = some (some wordsFile) ∧ IsFileName wordsFile.toList ∧
    InFolder root basedata wordsFile.toList wpath ∧ fs wpath = some w ∧ w.words = words

/-- the project has a file with the markables `ms` for the level: its name is the ID of the document, followed by the extension of the level -/
def MmaxFs.HasLevel (fs : MmaxFs) (root id : List Char) (markable : Option String) (levels : List (String × List Char)) (level : String) (ms : List Markable) : Prop :=
  ∃ ext path f, (level, ext) ∈ levels ∧ IsFileName (id ++ ext) ∧ InFolder root markable (id ++ ext) path ∧ fs path = some f ∧ f.children = ms.map Markable.attrs

end Dg
