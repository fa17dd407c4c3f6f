/-
Specification of the command line application (C74).
-/
import Verif.Model.MergingCli
import Verif.Spec.Layered

namespace Dg

/-- names of output formats and what is called for them (documentation of the option `-o`) -/
inductive CliFormat : String → CliWriter → Prop
  | dot : CliFormat "dot" .dot
  | brat : CliFormat "brat" .brat
  | brackets : CliFormat "brackets" .brackets
  | pickle : CliFormat "pickle" .pickle
  | geoff : CliFormat "geoff" .geoff
  | neo4j : CliFormat "neo4j" .geoff
  | gexf : CliFormat "gexf" .gexf
  | graphml : CliFormat "graphml" .graphml
  | exmaralda : CliFormat "exmaralda" .exmaralda
  | conll : CliFormat "conll" .conll
  | paula : CliFormat "paula" .paula

/-- the file `p` of kind `k` was specified -/
def CliArgs.Given (a : CliArgs) (k : CliKind) (p : String) : Prop := a.file k = some p ∧ p ≠ ""

/-- no file of this kind was specified -/
def CliArgs.NotGiven (a : CliArgs) (k : CliKind) : Prop := a.file k = none ∨ a.file k = some ""

/-- `files` are the files to be merged, in the order of merging: syntax, rhetorical structure, connectives, coreference (anaphoricity files aside) -/
def CliArgs.FilesAre (a : CliArgs) (files : List (CliKind × String)) : Prop :=
  (files.map Prod.fst).Sublist [.tiger, .rst, .conano, .mmax] ∧ ∀ k p, (k, p) ∈ files ↔ a.Given k p ∧ k ≠ .anaphoricity

end Dg
