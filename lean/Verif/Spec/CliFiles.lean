/-
Specification: files that annotate the same text (C77).
-/
import Verif.Model.CliFiles
import Verif.Spec.MergingCli
import Verif.Spec.ReadLayers
import Verif.Spec.Anaphoricity
import Verif.Spec.Tiger
import Verif.Spec.RstGraph
import Verif.Spec.Conano
import Verif.Spec.Mmax
import Verif.Spec.Words

namespace Dg
open DG

/-- an ID that occurs in a TigerXML file: of a terminal or a nonterminal -/
def TigerId (ss : List TigerS) (x : String) : Prop := .str x ∈ ss.flatMap TigerS.declared

/-- an ID that is made of the attributes of a Conano element, e.g. `1:ext` -/
def ConanoId (t : CTree) (x : String) : Prop := ∃ r p ls, CStep.elem p x ls ∈ t.steps r

/-- an ID that occurs in an MMAX project: of a word, a markable, an antecedent, or a sentence -/
def MmaxId (doc : MmaxDoc) (x : String) : Prop := x ∈ doc.wordIds ++ doc.markIds ++ doc.anteIds ++ doc.sentIds true

/-- The file `p` is a correct file of its kind and contains the words `strs`; `ids` are the IDs that occur in it.  (The IDs in RST files get a prefix, so they do not matter.) -/
inductive CliText (fs : CliFiles) (strs : List String) : CliKind → String → (String → Prop) → Prop where
  | tiger {p} (valid : ValidDoc "tiger" (fs.tiger p)) (words : List.Forall₂ (TigerWord (fs.tiger p)) ((fs.tiger p).flatMap (fun s => naturalSorted s.toks)) strs) :
      CliText fs strs .tiger p (TigerId (fs.tiger p))
  | rst {p} (valid : (fs.rst p).ReadOk) (words : ((Rs3Doc.segments (fs.rst p)).flatMap (fun x => splitWs x.text)).map String.ofList = strs) :
      CliText fs strs .rst p (fun _ => False)
  | conano {p t} (resolve : (fs.conano p).resolve "conano" none = .ok t) (valid : t.Distinct "conano") (words : ((fs.conano p).pieces.flatMap splitWs).map String.ofList = strs)
      (plain : Words isAsciiSpace (plainText (fs.conano p)) ((fs.conano p).pieces.flatMap splitWs)) :
      CliText fs strs .conano p (ConanoId t)
  | mmax {p doc} (valid : doc.Ok "mmax" true) (content : ({ fs.mmax p with base := p } : MmaxProject).Has true doc) (order : (fs.levels p).Perm (doc.levels.map Prod.fst)) (words : doc.words.map Prod.snd = strs) :
      CliText fs strs .mmax p (MmaxId doc)

/-- an ID that cannot be mixed up with those the readers make themselves: it is not empty and does not begin with a name used by them -/
def HarmlessId (x : String) : Prop := x ≠ "" ∧ ∀ a ∈ ["discoursegraph", "tiger", "rst", "conano", "token", "mmax"], ∀ b, x ≠ qual a b

end Dg
