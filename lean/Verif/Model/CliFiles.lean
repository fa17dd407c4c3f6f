/-
What `merging.py` reads: the readers it calls, with the parameters it leaves at their defaults, applied to the content of the files.
-/
import Verif.Model.MergingCli
import Verif.Model.Tiger
import Verif.Model.RstGraph
import Verif.Model.Anaphoricity
import Verif.Model.Conano
import Verif.Model.Mmax

namespace Dg

/-- the content of the files, as the XML parser finds it; `levels`: the order in which Python iterates over the names of the levels of the MMAX project with this base file -/
structure CliFiles where
  isFile : String → Bool
  tiger : String → List TigerS
  rst : String → Rs3Doc
  anaphoricity : String → List Char
  conano : String → CElem
  mmax : String → MmaxProject
  levels : String → List String

/-- `os.path.basename` (tiger.py:84, rs3graph.py:93, anaphoricity.py:92, conano.py:70) -/
def cliName (p : String) : String := String.ofList (baseName p.toList)

/-- the readers called in merging.py:56-84; their defaults are in tiger.py:57, rs3graph.py:61-62, anaphoricity.py:54-55, conano.py:41-42, mmax2.py:95-97.
The list of EDUs, which the reader for RST files stores in the metadata of its root, is left out. -/
def cliRead (fs : CliFiles) : CliKind → String → Except PyErr DG
  | .tiger, p => DG.tigerRead (cliName p) "tiger" (fs.tiger p)
  | .rst, p => (DG.rstRead (cliName p) "rst" true false (fs.rst p)).map Prod.fst
  | .anaphoricity, p => DG.anaphRead (cliName p) "anaphoricity" false (fs.anaphoricity p)
  | .conano, p => DG.conanoRead (cliName p) "conano" true (fs.conano p)
  | .mmax, p => DG.mmaxRead none "mmax" false false true { fs.mmax p with base := p } (fs.levels p)

/-- the surroundings of the application, given the files, the chances and the writers -/
def cliFilesEnv {α : Type} (fs : CliFiles) (sched : CliKind → DG.Sched) (write : CliWriter → Option String → DG → Except PyErr α) : CliEnv α :=
  { isFile := fs.isFile, read := cliRead fs, sched := sched, write := write }

end Dg
