/-
Finding files: `find_files` (src/discoursegraphs/util.py) with `os.walk`, `os.path.join` (Python 2.7, POSIX), and the lists of files of `PCC` (src/discoursegraphs/corpora.py).
-/
import Verif.Model.Corpora

namespace Dg

/-- What is listed in a directory, in the order of `os.listdir`: files (and links to files, and whatever else is no directory), directories with what is in them, directories that cannot be listed, and links to directories. -/
inductive FsDir where
  | nil
  | file (name : List Char) (rest : FsDir)
  | dir (name : List Char) (sub : FsDir) (rest : FsDir)
  | denied (name : List Char) (rest : FsDir)
  | link (name : List Char) (rest : FsDir)

namespace FsDir

/-- `os.path.join(root, name)` for a name that does not begin with `/` -/
def join (root name : List Char) : List Char := if root = [] ∨ root.getLast? = some '/' then root ++ name else root ++ '/' :: name

/-- the names that `os.walk` gives as files of a directory -/
def files : FsDir → List (List Char)
  | nil => []
  | file n r => n :: files r
  | dir _ _ r => files r
  | denied _ r => files r
  | link _ r => files r

/-- util.py:242-245: the loop over the files of one directory -/
def matching (pattern root : List Char) (d : FsDir) : List (List Char) := ((files d).filter (fun n => fnmatch pattern n)).map (join root)

/-- util.py:241-245: the files below a directory, without its own files.  `os.walk` goes into directories in the order in which they are listed; it does not follow links, and leaves out directories that cannot be listed. -/
def walkSubs (pattern : List Char) : List Char → FsDir → List (List Char)
  | _, nil => []
  | root, file _ r => walkSubs pattern root r
  | root, dir n s r => (matching pattern (join root n) s ++ walkSubs pattern (join root n) s) ++ walkSubs pattern root r
  | root, denied _ r => walkSubs pattern root r
  | root, link _ r => walkSubs pattern root r

/-- util.py:237-245 `find_files(directory, pattern)`: `root` is the result of `abspath(expanduser(directory))`; nothing is found if there is no such directory -/
def findFiles (pattern root : List Char) : Option FsDir → List (List Char)
  | none => []
  | some d => matching pattern root d ++ walkSubs pattern root d

end FsDir

/-- util.py:246-250 `find_files(filelist, pattern)`: the pattern is compared to the whole path -/
def findInList (pattern : List Char) (fs : List (List Char)) : List (List Char) := fs.filter (fun f => fnmatch pattern f)

/-- The argument of `find_files`: a `str`, or something else that can be iterated.  A `unicode` object is not a `str`: it is iterated over by its characters. -/
inductive FilesArg where
  | str (path : List Char)
  | unicode (path : List Char)
  | list (files : List (List Char))

/-- util.py:225-250 `find_files`: `fs` gives the absolute path for a path, and what is there -/
def findFilesIn (fs : List Char → List Char × Option FsDir) (arg : FilesArg) (pattern : List Char) : List (List Char) :=
  match arg with
  | .str path => FsDir.findFiles pattern (fs path).1 (fs path).2
  | .unicode path => findInList pattern (path.map (fun c => [c]))
  | .list files => findInList pattern files

/-- the directories of the layers, corpora.py:60-63 -/
def PccLayer.directory : PccLayer → List Char
  | .connectors => "connectors".toList
  | .coreference => "coreference".toList
  | .rst => "rst".toList
  | .syntax => "syntax".toList

/-- the patterns of the files of the layers, corpora.py:60-63 -/
def PccLayer.pattern : PccLayer → List Char
  | .connectors => "maz*.xml".toList
  | .coreference => "maz*.mmax".toList
  | .rst => "maz*.rs3".toList
  | .syntax => "maz*.xml".toList

/-- `PCC.get_files_by_layer(layer_name, file_pattern)`, corpora.py:124-130, for a corpus in the directory `path` (an absolute path) with the directories `dirs` -/
def pccFilesByLayer (path : List Char) (dirs : List Char → Option FsDir) (layer pattern : List Char) : List (List Char) := FsDir.findFiles pattern (FsDir.join path layer) (dirs layer)

/-- `PCC.__init__`, corpora.py:58-76 -/
def Pcc.make (path : List Char) (dirs : List Char → Option FsDir) : Pcc where
  layers l := pccFilesByLayer path dirs l.directory l.pattern
  tokenization := pccFilesByLayer path dirs "tokenized".toList "maz*.tok".toList

end Dg
