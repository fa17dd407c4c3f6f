/-
Reader of Penn Treebank files (src/discoursegraphs/readwrite/ptb.py).
The input is the list of trees that nltk's `BracketParseCorpusReader` finds in the file.
-/
import Verif.Model.Tiger
import Verif.Spec.Rst

namespace Dg

/-- ptb.py:130-136 `get_nodelabel` -/
def ptbNodeLabel : PTree → Except PyErr (List Char)
  | .node l _ => .ok l
  | .leaf w => .ok w
  | .none => .error .value

/-- `PTB_BRACKET_UNESCAPE.get(label, label)`, ptb.py:18-25, 145 -/
def ptbUnescape (l : List Char) : List Char :=
  if l = ['-', 'L', 'R', 'B', '-'] then ['(']
  else if l = ['-', 'R', 'R', 'B', '-'] then [')']
  else if l = ['-', 'L', 'S', 'B', '-'] then ['[']
  else if l = ['-', 'R', 'S', 'B', '-'] then [']']
  else if l = ['-', 'L', 'C', 'B', '-'] then ['{']
  else if l = ['-', 'R', 'C', 'B', '-'] then ['}']
  else l

/-- the label of a trace -/
def ptbNone : List Char := ['-', 'N', 'O', 'N', 'E', '-']

namespace DG

/-- ptb.py:149-162: the node number `n` for a subtree with the label `l` and `len` children, and the edge to it -/
def ptbAddNode (root n : Nat) (l : List Char) (len : Nat) (g : DG) : Except PyErr DG := do
  let g1 ←
    if len > 1 then g.addNode (.int n) (.set [.str g.ns, .str (qual g.ns "syntax")]) (.dict [("label", strVal l), (qual g.ns "cat", strVal l)]) []
    else g.addNode (.int n) (.set [.str g.ns]) (.dict [("label", strVal l)]) []
  g1.addEdge (.int root) (.int n) (.atom .none) none .none [("edge_type", .atom (.str dominanceRelation))]

/-- ptb.py:164-174: a token modifies the node of its parent.  (`self.node[None]` is a KeyError.) -/
def ptbAddToken (parent : Option Nat) (w : List Char) (g : DG) : Except PyErr DG := do
  match parent with
  | none => .error .key
  | some p =>
    let pos ← g.getAttr (.int p) "label"
    let g1 ← g.updateNode (.int p) [("label", strVal w), (qual g.ns "token", strVal w), (qual g.ns "pos", pos)]
    return { g1 with tokens := g1.tokens ++ [.int p] }

mutual
/-- ptb.py:128-177 `_parse_sentencetree`; the second component of the state is `self._node_id`.  (Line 177: the recursive call always ignores traces.)
Simplification: it is only called for trees. -/
def ptbParse (ignore : Bool) (parent : Option Nat) : PTree → DG × Nat → Except PyErr (DG × Nat)
  | .node label kids, st => do
    let g ← st.1.setAttr (.int st.2) "label" (strVal label)
    ptbKids ignore parent st.2 kids (g, st.2)
  | .leaf _, _ => .error .value
  | .none, _ => .error .value
/-- ptb.py:141-177: the loop over the children of the node `root` -/
def ptbKids (ignore : Bool) (parent : Option Nat) (root : Nat) : List PTree → DG × Nat → Except PyErr (DG × Nat)
  | [], st => .ok st
  | k :: ks, st => do
    let l ← ptbNodeLabel k
    if ignore ∧ ptbUnescape l = ptbNone then ptbKids ignore parent root ks (st.1, st.2 + 1)
    else
      match k with
      | .node label sub => do
        let g ← ptbAddNode root (st.2 + 1) (ptbUnescape l) sub.length st.1
        let st' ← ptbParse true (some (st.2 + 1)) (.node label sub) (g, st.2 + 1)
        ptbKids ignore parent root ks st'
      | _ => do
        let g ← ptbAddToken parent (ptbUnescape l) st.1
        ptbKids ignore parent root ks (g, st.2 + 1)
end

/-- ptb.py:112-126 `_add_sentence` -/
def ptbAddSentence (ignore : Bool) (st : DG × Nat) (t : PTree) : Except PyErr (DG × Nat) := do
  let g : DG := { st.1 with sentences := st.1.sentences ++ [.int st.2] }
  let g1 ← g.addEdge g.root (.int st.2) (.atom .none) none .none [("edge_type", .atom (.str dominanceRelation))]
  let st' ← ptbParse ignore none t (g1, st.2)
  return (st'.1, st'.2 + 1)

/-- ptb.py:70-83: the graph before the first sentence -/
def ptbStart (name ns : String) : Except PyErr DG := do
  let g := init "" "discoursegraph" none
  let g1 ← if Dict.has g.nodes (.str "discoursegraph:root_node") then g.removeNode (.str "discoursegraph:root_node") else .ok g
  ({ g1 with name := name, ns := ns, root := .int 0 }).addNode (.int 0) (.set [.str ns]) .none [("label", .atom (.str (qual ns "root_node")))]

/-- ptb.py:89-95: the sentences to be read.  Simplification: `limit` is not negative. -/
def ptbLimit (limit : Option Nat) (sents : List PTree) : List PTree :=
  match limit with
  | none => sents
  | some 0 => sents
  | some n => sents.take n

/-- ptb.py:44-98 `PTBDocumentGraph(ptb_filepath, name, namespace, precedence, limit, ignore_traces)` for a file with the given trees (`name` is the given name or the name of the file) -/
def ptbRead (name ns : String) (precedence : Bool) (limit : Option Nat) (ignore : Bool) (sents : List PTree) : Except PyErr DG := do
  let g ← ptbStart name ns
  let st ← (ptbLimit limit sents).foldlM (ptbAddSentence ignore) (g, 1)
  if precedence then batch st.1.addPrecedenceRelations else .ok st.1

end DG
end Dg
