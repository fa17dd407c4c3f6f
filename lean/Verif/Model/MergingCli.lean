/-
The command line application: src/discoursegraphs/merging.py.
Parameters: the file system, the readers and the writers (modelled elsewhere).
Not modelled: parsing of the command line, creation of the output directory (lines 87-92), the line break after geoff output (line 107) and the debug message.
-/
import Verif.Model.Merge

namespace Dg

/-- kinds of files that can be merged, merging.py:29-38 -/
inductive CliKind where
  | tiger
  | rst
  | anaphoricity
  | conano
  | mmax
deriving DecidableEq, Repr

/-- functions that write a graph, merging.py:94-121 -/
inductive CliWriter where
  | dot
  | brat
  | brackets
  | pickle
  | geoff
  | gexf
  | graphml
  | exmaralda
  | conll
  | paula
deriving DecidableEq, Repr

/-- the arguments of the application, merging.py:29-45; `output = none`: standard output -/
structure CliArgs where
  file : CliKind → Option String
  format : String
  output : Option String

/-- the surroundings: which paths are files, what the readers return, the chances of the renaming, what the writers return -/
structure CliEnv (α : Type) where
  isFile : String → Bool
  read : CliKind → String → Except PyErr DG
  sched : CliKind → DG.Sched
  write : CliWriter → Option String → DG → Except PyErr α

/-- the path of an argument that was specified and is not empty: `if args.tiger_file:` -/
def CliArgs.path (a : CliArgs) (k : CliKind) : Option String := (a.file k).filter (fun p => p ≠ "")

/-- merging.py:47-51: the files must exist (mmax files are not checked) -/
def filesExist {α : Type} (env : CliEnv α) (a : CliArgs) : Bool :=
  [CliKind.tiger, .rst, .anaphoricity, .conano].all (fun k => match a.path k with
    | none => true
    | some p => env.isFile p)

/-- reads a file and merges it, if it was specified: merging.py:56-59, 61-63, 65-68, 76-79, 81-84 -/
def mergeFile {α : Type} (env : CliEnv α) (a : CliArgs) (k : CliKind) (g : DG) : Except PyErr DG :=
  match a.path k with
  | none => .ok g
  | some p => do
    let o ← env.read k p
    match g.mergeGraphs o (env.sched k) with
    | (g', none) => .ok g'
    | (_, some e) => .error e

/-- merging.py:71-74: an exception of remove_node leads to evaluation of `networkx.NetworkXError`, but `networkx` is not imported: NameError -/
def removeAnaphoricityRoot (g : DG) : Except PyErr DG :=
  match g.removeNode (.str "anaphoricity:root_node") with
  | .ok g' => .ok g'
  | .error _ => .error .name

/-- the merged graph, merging.py:47-84 -/
def cliGraph {α : Type} (env : CliEnv α) (a : CliArgs) : Except PyErr DG :=
  if filesExist env a then do
    let g1 ← mergeFile env a .tiger (DG.init "" "discoursegraph" none)
    let g2 ← mergeFile env a .rst g1
    let g3 ← mergeFile env a .anaphoricity g2
    let g4 ← if (a.path .anaphoricity).isSome then removeAnaphoricityRoot g3 else .ok g3
    let g5 ← mergeFile env a .conano g4
    mergeFile env a .mmax g5
  else .error .assertion

/-- which function writes a format, merging.py:94-121 -/
def cliWriter (format : String) : Option CliWriter :=
  if format = "dot" then some .dot
  else if format = "brat" then some .brat
  else if format = "brackets" then some .brackets
  else if format = "pickle" then some .pickle
  else if format = "geoff" ∨ format = "neo4j" then some .geoff
  else if format = "gexf" then some .gexf
  else if format = "graphml" then some .graphml
  else if format = "exmaralda" then some .exmaralda
  else if format = "conll" then some .conll
  else if format = "paula" then some .paula
  else none

/-- `merging_cli()`, merging.py:20-128: what the writer returns; `none`: nothing is written.  Pickle output opens the output file first (line 102): TypeError if there is none. -/
def mergingCli {α : Type} (env : CliEnv α) (a : CliArgs) : Except PyErr (Option α) := do
  let g ← cliGraph env a
  match cliWriter a.format with
  | some w =>
    if w = .pickle ∧ a.output = none then .error .type
    else do
      let r ← env.write w a.output g
      .ok (some r)
  | none => if a.format = "no-output" then .ok none else .error .value

end Dg
