/-
Specification of the LaTeX export of RST trees: what is drawn, without layout.
-/
import Verif.Model.RstLatex

namespace Dg

/-- an RST structure as a user sees it -/
inductive LTree
  /-- an elementary unit with its text -/
  | edu (text : List Char)
  /-- a multinuclear relation -/
  | multi (rel : List Char) (kids : List LTree)
  /-- a relation between a nucleus and a satellite; `left` says whether the satellite precedes the nucleus -/
  | mono (rel : List Char) (left : Bool) (sat nuc : LTree)
  /-- a nucleus with several satellites; each satellite has a relation name and a side -/
  | bundle (rels : List (List Char × Bool)) (sats : List LTree) (nuc : LTree)

namespace LTree

mutual
/-- the tree handed to the exporter -/
def toPTree : LTree → PTree
  | .edu s => .leaf s
  | .multi rel kids => .node rel (toPTrees kids)
  | .mono rel left sat nuc => nucSatNode rel left sat.toPTree nuc.toPTree
  | .bundle rels sats nuc => .node multisatRelname (toRelations nuc.toPTree rels sats)
/-- the nuclei of a multinuclear relation -/
def toPTrees : List LTree → List PTree
  | [] => []
  | k :: ks => .node ['N'] [k.toPTree] :: toPTrees ks
/-- the relations of a bundle: each repeats the nucleus -/
def toRelations (nuc : PTree) : List (List Char × Bool) → List LTree → List PTree
  | r :: rs, k :: ks => .node ['S'] [nucSatNode r.1 r.2 k.toPTree nuc] :: toRelations nuc rs ks
  | _, _ => []
/-- a relation node with a nucleus and a satellite -/
def nucSatNode (rel : List Char) (left : Bool) (sat nuc : PTree) : PTree :=
  .node rel (if left then [.node ['S'] [sat], .node ['N'] [nuc]] else [.node ['N'] [nuc], .node ['S'] [sat]])
end


/-- the text of a unit with runs of white space replaced by one blank -/
def unitText (s : List Char) : List Char := joinChars [' '] (splitWs s)

/-- `{}{...}` -/
def nucGroup (s : List Char) : List Char := ['{', '}', '{'] ++ s ++ ['}']

/-- `{rel}{...}` -/
def satGroup (rel s : List Char) : List Char := ['{'] ++ rel ++ ['}', '{'] ++ s ++ ['}']

mutual
/-- the rst.sty source of a structure, without line breaks and indentation -/
def tex : LTree → List Char
  | .edu s => unitText s
  | .multi rel kids => ['\\', 'm', 'u', 'l', 't', 'i', 'r', 'e', 'l', '{'] ++ rel ++ ['}'] ++ texNuclei kids
  | .mono rel left sat nuc =>
    ['\\', 'd', 'i', 'r', 'r', 'e', 'l'] ++
      (if left then satGroup rel sat.segment ++ nucGroup nuc.segment else nucGroup nuc.segment ++ satGroup rel sat.segment)
  | .bundle rels sats nuc =>
    ['\\', 'd', 'i', 'r', 'r', 'e', 'l'] ++ (texSats true rels sats ++ nucGroup nuc.segment ++ texSats false rels sats)
/-- a structure as a part of another one: units are marked as segments -/
def segment : LTree → List Char
  | .edu s => ['\\', 'r', 's', 't', 's', 'e', 'g', 'm', 'e', 'n', 't', '{'] ++ unitText s ++ ['}']
  | .multi rel kids => ['\\', 'm', 'u', 'l', 't', 'i', 'r', 'e', 'l', '{'] ++ rel ++ ['}'] ++ texNuclei kids
  | .mono rel left sat nuc =>
    ['\\', 'd', 'i', 'r', 'r', 'e', 'l'] ++
      (if left then satGroup rel sat.segment ++ nucGroup nuc.segment else nucGroup nuc.segment ++ satGroup rel sat.segment)
  | .bundle rels sats nuc =>
    ['\\', 'd', 'i', 'r', 'r', 'e', 'l'] ++ (texSats true rels sats ++ nucGroup nuc.segment ++ texSats false rels sats)
/-- the nuclei of a multinuclear relation -/
def texNuclei : List LTree → List Char
  | [] => []
  | k :: ks => ['{'] ++ k.segment ++ ['}'] ++ texNuclei ks
/-- the satellites of a bundle on one side of the nucleus, in their order -/
def texSats (side : Bool) : List (List Char × Bool) → List LTree → List Char
  | r :: rs, k :: ks => (if r.2 = side then satGroup r.1 k.segment else []) ++ texSats side rs ks
  | _, _ => []
end

/-- a name or text that line breaks and tabs cannot disturb -/
def Plain (s : List Char) : Prop := '\n' ∉ s ∧ '\t' ∉ s

/-- a relation name as the exporter expects it -/
def RelName (s : List Char) : Prop := Plain s ∧ s ≠ ['N'] ∧ s ≠ ['S'] ∧ s ≠ multisatRelname

mutual
/-- what the exporter needs: units whose text contains no rst.sty command, relation names that are no structural labels, non-empty multinuclear relations, bundles
of at least two relations in which a satellite to the left of the nucleus, if there is one, comes first -/
def Exportable : LTree → Prop
  | .edu s => ¬ ['\\', 'd', 'i', 'r', 'r', 'e', 'l'] <:+: unitText s ∧ ¬ ['\\', 'm', 'u', 'l', 't', 'i', 'r', 'e', 'l'] <:+: unitText s
  | .multi rel kids => RelName rel ∧ kids ≠ [] ∧ ExportableAll kids
  | .mono rel _ sat nuc => RelName rel ∧ sat.Exportable ∧ nuc.Exportable
  | .bundle rels sats nuc =>
    (∀ r ∈ rels, RelName r.1) ∧ rels.length = sats.length ∧ 2 ≤ rels.length ∧
      ((∃ r ∈ rels.head?, r.2 = true) ∨ ∀ r ∈ rels, r.2 = false) ∧ ExportableAll sats ∧ nuc.Exportable
/-- all structures of a list are exportable -/
def ExportableAll : List LTree → Prop
  | [] => True
  | k :: ks => k.Exportable ∧ ExportableAll ks
end

mutual
/-- recursion depth needed -/
def depth : LTree → Nat
  | .edu _ => 1
  | .multi _ kids => depthAll kids + 1
  | .mono _ _ sat nuc => max sat.depth nuc.depth + 1
  | .bundle _ sats nuc => max (depthAll sats) nuc.depth + 2
/-- the maximum of the depths -/
def depthAll : List LTree → Nat
  | [] => 0
  | k :: ks => max k.depth (depthAll ks)
end

end LTree

/-- a text without line breaks and tabs -/
def flat (s : List Char) : List Char := s.filter (fun c => c ≠ '\n' ∧ c ≠ '\t')

end Dg
