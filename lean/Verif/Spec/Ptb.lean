/-
Specification of the content of a document graph read from a Penn Treebank file, in terms of the syntax trees of the sentences.
-/
import Verif.Model.Ptb
import Verif.Spec.RstGraph

namespace Dg

/-- A syntax tree: a word with its part of speech, or a phrase. -/
inductive Syn
  | tok (pos word : List Char)
  | phrase (cat : List Char) (kids : List Syn)

namespace Syn

/-- the part of speech or the category -/
def label : Syn → List Char
  | tok pos _ => pos
  | phrase cat _ => cat

/-- the direct parts -/
def parts : Syn → List Syn
  | tok _ _ => []
  | phrase _ ks => ks

mutual
/-- the tree as in nltk: a word is the only child of its part of speech -/
def ptree : Syn → PTree
  | tok pos w => .node pos [.leaf w]
  | phrase c ks => .node c (ptrees ks)
/-- the trees of several syntax trees -/
def ptrees : List Syn → List PTree
  | [] => []
  | k :: ks => ptree k :: ptrees ks
end

/-- an empty element -/
def IsTrace (t : Syn) : Prop := t.label = ['-', 'N', 'O', 'N', 'E', '-']

instance (t : Syn) : Decidable t.IsTrace := by unfold IsTrace; infer_instance

/-- is part of the graph -/
def kept (ignore : Bool) (t : Syn) : Bool := !(ignore && decide t.IsTrace)

/-- `s` is `t` or a part of it -/
inductive Part : Syn → Syn → Prop
  | refl (t : Syn) : Part t t
  | kid {s k : Syn} {c : List Char} {ks : List Syn} : k ∈ ks → Part s k → Part s (phrase c ks)

/-- no word is the mark of empty elements -/
def Ok (t : Syn) : Prop := ∀ pos w, Part (tok pos w) t → w ≠ ['-', 'N', 'O', 'N', 'E', '-']

/-- a sentence is a phrase -/
def IsPhrase (t : Syn) : Prop := ∃ c ks, t = phrase c ks

mutual
/-- the words with their parts of speech, without the empty elements -/
def words : Syn → List (List Char × List Char)
  | tok pos w => if (tok pos w).IsTrace then [] else [(pos, w)]
  | phrase c ks => if (phrase c ks).IsTrace then [] else wordsAll ks
/-- the words of several syntax trees -/
def wordsAll : List Syn → List (List Char × List Char)
  | [] => []
  | k :: ks => words k ++ wordsAll ks
end

end Syn

/-- a node of the graph: the node it is attached to (0 is the document), its number, and the part of a sentence it stands for -/
structure PtbRow where
  parent : Nat
  id : Nat
  tree : Syn

/-- `rows` are the nodes of a document with the given sentences, in preorder: numbered from left to right, each one behind its parent.  The nodes attached to the document are the sentences, the nodes attached to another node are its parts (without empty elements; `ignore = false` keeps those that are direct parts of a sentence). -/
structure PtbRows (ignore : Bool) (sents : List Syn) (rows : List PtbRow) : Prop where
  numbers : rows.Pairwise (fun a b => a.id < b.id)
  positive : ∀ r ∈ rows, 0 < r.id
  sentences : (rows.filter (fun r => r.parent = 0)).map PtbRow.tree = sents
  parts : ∀ r ∈ rows, (rows.filter (fun q => q.parent = r.id)).map PtbRow.tree = r.tree.parts.filter (Syn.kept (ignore || decide (r.parent ≠ 0)))
  parents : ∀ r ∈ rows, r.parent = 0 ∨ ∃ q ∈ rows, q.id = r.parent ∧ q.id < r.id

namespace PtbRow

/-- the node -/
def node (r : PtbRow) : NodeId := .int r.id

/-- the edge to the node -/
def edge (ns : String) (r : PtbRow) : DG.EdgeSpec := ⟨.int r.parent, .int r.id, [ns], [("edge_type", .atom (.str "dominates"))]⟩

/-- the part of speech and the word, if the node is a token -/
def token (r : PtbRow) : Option (List Char × List Char) :=
  match r.tree with
  | .tok pos w => some (pos, w)
  | .phrase _ _ => none

end PtbRow

end Dg

namespace Dg

/-- the names of brackets in the Penn Treebank -/
def ptbBrackets : List (List Char × Char) :=
  [(['-', 'L', 'R', 'B', '-'], '('), (['-', 'R', 'R', 'B', '-'], ')'), (['-', 'L', 'S', 'B', '-'], '['), (['-', 'R', 'S', 'B', '-'], ']'), (['-', 'L', 'C', 'B', '-'], '{'), (['-', 'R', 'C', 'B', '-'], '}')]

/-- a word as in the text: the name of a bracket stands for the bracket -/
def ptbWord (w : List Char) : List Char :=
  match ptbBrackets.find? (fun p => p.1 = w) with
  | some p => [p.2]
  | none => w

/-- the sentences that are read: with `limit` (other than 0) only the first ones -/
def ptbRange (limit : Option Nat) (ts : List Syn) : List Syn :=
  match limit with
  | some (n + 1) => ts.take (n + 1)
  | _ => ts

mutual
/-- the words with their parts of speech, including the empty elements -/
def Syn.allWords : Syn → List (List Char × List Char)
  | .tok pos w => [(pos, w)]
  | .phrase _ ks => Syn.allWordsOf ks
/-- the words of several syntax trees -/
def Syn.allWordsOf : List Syn → List (List Char × List Char)
  | [] => []
  | k :: ks => Syn.allWords k ++ Syn.allWordsOf ks
end

/-- the empty elements of a sentence are among its direct parts -/
def Syn.Shallow (t : Syn) : Prop := ∀ k ∈ t.parts, ∀ x ∈ k.parts, ∀ s, Syn.Part s x → ¬ s.IsTrace

/-- the token nodes with their parts of speech and words -/
def ptbTokens (rows : List PtbRow) : List (NodeId × List Char × List Char) := rows.filterMap (fun r => r.token.map (fun t => (r.node, t)))

namespace DG

/-- the content of the graph of a document with the nodes `rows` -/
structure PtbContent (ns : String) (precedence : Bool) (rows : List PtbRow) (g : DG) : Prop where
  space : g.ns = ns
  root : g.root = .int 0
  /-- the nodes are the document (0) and the parts of the sentences -/
  nodes : ∀ m, g.HasNode m ↔ m = .int 0 ∨ ∃ r ∈ rows, m = r.node
  tokens : g.tokens = (ptbTokens rows).map Prod.fst
  sentences : g.sentences = (rows.filter (fun r => r.parent = 0)).map PtbRow.node
  /-- the edges are one dominance edge to each node, and the precedence edges -/
  edges : EdgesAre g (rows.map (PtbRow.edge ns) ++ if precedence then precEdges ns (.int 0) ((ptbTokens rows).map Prod.fst) else [])
  /-- a word has its part of speech and its text -/
  token : ∀ r ∈ rows, ∀ pos w, r.tree = .tok pos w →
    g.nodeAttr r.node (qual ns "token") = some (strVal (ptbWord w)) ∧ g.nodeAttr r.node (qual ns "pos") = some (strVal pos) ∧ g.nodeAttr r.node "label" = some (strVal (ptbWord w)) ∧ g.nodeAttr r.node (qual ns "cat") = none
  /-- a phrase has its category as label; as category only if it is not a sentence and has at least two parts -/
  phrase : ∀ r ∈ rows, ∀ c ks, r.tree = .phrase c ks →
    g.nodeAttr r.node "label" = some (strVal c) ∧ g.nodeAttr r.node (qual ns "token") = none ∧ g.nodeAttr r.node (qual ns "pos") = none ∧
    g.nodeAttr r.node (qual ns "cat") = if r.parent ≠ 0 ∧ 2 ≤ ks.length then some (strVal (ptbWord c)) else none
  /-- phrases with a category are in the syntax layer -/
  layer : ∀ r ∈ rows, ∀ l, g.NodeLayer r.node l ↔ l = .str ns ∨ (l = .str (qual ns "syntax") ∧ r.parent ≠ 0 ∧ 2 ≤ r.tree.parts.length)
  rootLayer : ∀ l, g.NodeLayer (.int 0) l ↔ l = .str ns
  rootLabel : g.nodeAttr (.int 0) "label" = some (.atom (.str (qual ns "root_node")))

end DG
end Dg
