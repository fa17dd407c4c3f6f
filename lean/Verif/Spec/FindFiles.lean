/-
Specification of finding files (C81).
-/
import Verif.Model.FindFiles
import Verif.Spec.Corpora

namespace Dg
namespace FsDir

/-- there is a file at the path given by the names of directories and of the file -/
inductive FileAt : FsDir → List (List Char) → Prop
  | here {n : List Char} {r : FsDir} : FileAt (.file n r) [n]
  | inside {n : List Char} {s r : FsDir} {p : List (List Char)} : FileAt s p → FileAt (.dir n s r) (n :: p)
  | file {n : List Char} {r : FsDir} {p : List (List Char)} : FileAt r p → FileAt (.file n r) p
  | dir {n : List Char} {s r : FsDir} {p : List (List Char)} : FileAt r p → FileAt (.dir n s r) p
  | denied {n : List Char} {r : FsDir} {p : List (List Char)} : FileAt r p → FileAt (.denied n r) p
  | link {n : List Char} {r : FsDir} {p : List (List Char)} : FileAt r p → FileAt (.link n r) p

/-- `n` is a name in the directory -/
inductive HasName : FsDir → List Char → Prop
  | file {n r} : HasName (.file n r) n
  | dir {n s r} : HasName (.dir n s r) n
  | denied {n r} : HasName (.denied n r) n
  | link {n r} : HasName (.link n r) n
  | afterFile {n r m} : HasName r m → HasName (.file n r) m
  | afterDir {n s r m} : HasName r m → HasName (.dir n s r) m
  | afterDenied {n r m} : HasName r m → HasName (.denied n r) m
  | afterLink {n r m} : HasName r m → HasName (.link n r) m

/-- names are not empty and contain no `/` -/
def IsName (n : List Char) : Prop := n ≠ [] ∧ '/' ∉ n

/-- a directory as it can be in a file system: all names are names, and different -/
inductive Ok : FsDir → Prop
  | nil : Ok .nil
  | file {n r} : IsName n → ¬ HasName r n → Ok r → Ok (.file n r)
  | dir {n s r} : IsName n → ¬ HasName r n → Ok s → Ok r → Ok (.dir n s r)
  | denied {n r} : IsName n → ¬ HasName r n → Ok r → Ok (.denied n r)
  | link {n r} : IsName n → ¬ HasName r n → Ok r → Ok (.link n r)

/-- the absolute path of the file with the given names, below a directory: each name after a `/` -/
def pathOf (stem : List Char) (p : List (List Char)) : List Char := stem ++ p.flatMap (fun n => '/' :: n)

/-- the directory `root` is `stem`, or it is the root directory (and `stem` is empty) -/
def RootIs (root stem : List Char) : Prop := (root = stem ∧ stem ≠ [] ∧ stem.getLast? ≠ some '/') ∨ (root = ['/'] ∧ stem = [])

end FsDir

/-- the directories of the layers of the corpus, and the extensions of their files -/
inductive LayerFiles : PccLayer → List Char → List Char → Prop
  | connectors : LayerFiles .connectors "connectors".toList "xml".toList
  | coreference : LayerFiles .coreference "coreference".toList "mmax".toList
  | rst : LayerFiles .rst "rst".toList "rs3".toList
  | syntax : LayerFiles .syntax "syntax".toList "xml".toList

end Dg
