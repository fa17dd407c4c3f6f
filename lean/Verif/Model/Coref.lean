/-
Writers for coreference annotations: brat (src/discoursegraphs/readwrite/brat.py) and brackets (src/discoursegraphs/readwrite/brackets.py), together with
`spanstring2tokens` (src/discoursegraphs/readwrite/mmax2.py).  Not modelled: `create_visual_conf`, writing files.
-/
import Verif.Model.Chains
import Verif.Model.Offsets
import Verif.Model.Spanstring
import Verif.Model.Tree

namespace Dg
namespace DG

/-- readwrite/mmax2.py:387-402: the node for a token of a span string, if there is one -/
def existingToken (g : DG) (t : NodeId) : Option NodeId :=
  if Dict.has g.nodes t then some t
  else
    match g.renamed.bind (fun m => Dict.find m t) with
    | some r => if Dict.has g.nodes r then some r else none
    | none => none

/-- readwrite/mmax2.py:361-403 `spanstring2tokens` -/
def spanstring2tokens (g : DG) (s : String) : Except PyErr (List NodeId) := do
  let ts ← convertSpanstring s
  return ts.filterMap (fun t => g.existingToken (.str t))

/-- discoursegraph.py:1368-1373 `layer2namespace`, brat.py:60-63, brackets.py:38-41: the namespace of the span attribute -/
def corefNamespace (g : DG) : Option String → String
  | none => g.ns
  | some l => if l = "" then g.ns else beforeColon l

/-- the tokens of the markable: `spanstring2tokens(docgraph, docgraph.node[markable][namespace+':span'])`.  Simplification: span attributes that are no strings are
reported as AttributeError. -/
def markableSpan (g : DG) (ns : String) (m : NodeId) : Except PyErr (List NodeId) := do
  let v ← g.getAttr m (qual ns "span")
  match v with
  | .atom (.str s) => g.spanstring2tokens s
  | _ => .error .attribute

/-! ### brat -/

/-- brat.py:69-71: `first_token2markables`, `markable_dict` and `markable_index` -/
structure BratMarks where
  first : Dict NodeId (List NodeId)
  marks : Dict NodeId (Nat × List Char × Nat)
  next : Nat
  deriving Repr

/-- brat.py:75-79: the body of the loop over the markables -/
def bratAdd (g : DG) (ns : String) (st : BratMarks) (m : NodeId) : Except PyErr BratMarks := do
  let ts ← g.markableSpan ns m
  let text ← g.tokens2text ts
  match ts with
  | [] => .error .index
  | t :: _ =>
    return ⟨Dict.put st.first t ((Dict.find st.first t).getD [] ++ [m]), Dict.put st.marks m (st.next, text.toList, text.toList.length), st.next + 1⟩

/-- a line `T1⇥Markable 0 5⇥text` of the annotation file: number, onset, offset, text -/
structure TLine where
  index : Nat
  onset : Nat
  offset : Nat
  text : List Char
  deriving DecidableEq, Repr

/-- brat.py:86-88: the line for a markable that begins at this position -/
def bratLine (st : BratMarks) (onset : Nat) (m : NodeId) : Except PyErr TLine :=
  match Dict.find st.marks m with
  | none => .error .key
  | some (i, text, len) => .ok ⟨i, onset, onset + len, text⟩

/-- brat.py:81-89: the loop over the tokens -/
def bratTokens (g : DG) (st : BratMarks) : Nat → List NodeId → Except PyErr (List TLine)
  | _, [] => .ok []
  | onset, t :: ts => do
    let v ← g.getToken t
    let len ← pyLen v
    let here ← mapE (bratLine st onset) ((Dict.find st.first t).getD [])
    let rest ← bratTokens g st (onset + len + 1) ts
    return here ++ rest

/-- the number of a markable -/
def bratIndex (st : BratMarks) (m : NodeId) : Except PyErr Nat :=
  match Dict.find st.marks m with
  | none => .error .key
  | some (i, _) => .ok i

/-- brat.py:94-97: the numbers (`Arg1`, `Arg2`) of the relations of a chain whose elements are given from last to first -/
def bratRels (st : BratMarks) : List NodeId → Except PyErr (List (Nat × Nat))
  | [] => .ok []
  | [_] => .ok []
  | a :: b :: r => do
    let i ← bratIndex st a
    let j ← bratIndex st b
    let rest ← bratRels st (b :: r)
    return (i, j) :: rest

/-- brat.py:65-101 up to the formatting of the lines, for the given pointing chains: the T lines and the arguments of the R lines (which are numbered from 1) -/
def bratLines (g : DG) (ns : String) (chains : List (List NodeId)) (showRelations : Bool) : Except PyErr (List TLine × List (Nat × Nat)) := do
  let st ← (chains.flatMap naturalSorted).foldlM (g.bratAdd ns) ⟨[], [], 1⟩
  let ts ← g.bratTokens st 0 g.tokens
  let rs ← if showRelations then mapE (fun c => bratRels st (pySorted (fun a b => naturalLe b a) c)) chains else .ok []
  return (ts, rs.flatten)

/-- brat.py:87-88: formatting of a T line -/
def TLine.render (l : TLine) : List Char :=
  'T' :: decimal l.index ++ '\t' :: ['M', 'a', 'r', 'k', 'a', 'b', 'l', 'e', ' '] ++ decimal l.onset ++ ' ' :: decimal l.offset ++ '\t' :: l.text ++ ['\n']

/-- brat.py:98-100: formatting of the R lines -/
def renderRels : Nat → List (Nat × Nat) → List Char
  | _, [] => []
  | n, (i, j) :: r =>
    'R' :: decimal n ++ '\t' :: ['C', 'o', 'r', 'e', 'f', 'e', 'r', 'e', 'n', 'c', 'e', ' ', 'A', 'r', 'g', '1', ':', 'T'] ++ decimal i ++
      [' ', 'A', 'r', 'g', '2', ':', 'T'] ++ decimal j ++ '\n' :: renderRels (n + 1) r

/-- brat.py:41-101 `brat_output` -/
def bratOutput (fuel : Nat) (g : DG) (layer : Option String) (showRelations : Bool) : Except PyErr (List Char) := do
  let chains ← getPointingChains fuel g layer
  let (ts, rs) ← g.bratLines (g.corefNamespace layer) chains showRelations
  return ts.flatMap TLine.render ++ renderRels 1 rs

/-! ### brackets -/

/-- brackets.py:47-51: `markable2chain` -/
def markable2chain (chains : List (List NodeId)) : Dict NodeId NodeId :=
  chains.foldl (fun d c => match c with
    | [] => d
    | x :: _ => c.foldl (fun d m => Dict.put d m x) d) []

/-- brackets.py:53-60: the body of the loop over the markables; the state is `(opening, closing)` -/
def bracketAdd (g : DG) (ns : String) (st : Dict NodeId (List NodeId) × Dict NodeId (List NodeId)) (m : NodeId) :
    Except PyErr (Dict NodeId (List NodeId) × Dict NodeId (List NodeId)) :=
  match Dict.find g.nodes m with
  | none => .error .key
  | some a =>
    if Dict.has a (qual ns "span") then do
      let ts ← g.markableSpan ns m
      match ts.head?, ts.getLast? with
      | some t, some u =>
        return (Dict.put st.1 t ((Dict.find st.1 t).getD [] ++ [m]), Dict.put st.2 u ((Dict.find st.2 u).getD [] ++ [m]))
      | _, _ => .error .index
    else .ok st

/-- brackets.py:64-69 `gen_closing_string`: pop as many elements as markables end here.  The last element of the stack is the first of the list. -/
def popMany : Nat → List NodeId → Except PyErr (List NodeId × List NodeId)
  | 0, stack => .ok ([], stack)
  | _ + 1, [] => .error .index
  | n + 1, m :: stack => do
    let (ms, rest) ← popMany n stack
    return (m :: ms, rest)

/-- a token of the output: number of opening brackets, token string, closed markables -/
structure BracketToken where
  opened : Nat
  token : List Char
  closed : List NodeId
  deriving DecidableEq, Repr

/-- brackets.py:101-123: the loop over the tokens -/
def bracketTokens (g : DG) (opening closing : Dict NodeId (List NodeId)) : List NodeId → List NodeId → Except PyErr (List BracketToken)
  | _, [] => .ok []
  | stack, t :: ts => do
    let v ← g.getToken t
    let s ← fmtVal v
    let ms := (Dict.find opening t).getD []
    let (closed, stack) ← popMany ((Dict.find closing t).getD []).length (ms.reverse ++ stack)
    let rest ← bracketTokens g opening closing stack ts
    return ⟨ms.length, s, closed⟩ :: rest

/-- brackets.py:43-61, 98-122 for the given pointing chains, up to the formatting -/
def bracketList (g : DG) (ns : String) (chains : List (List NodeId)) : Except PyErr (List BracketToken) := do
  let st ← (naturalSorted chains.flatten).foldlM (g.bracketAdd ns) ([], [])
  g.bracketTokens st.1 st.2 [] g.tokens

/-- brackets.py:68-69: formatting of a closing bracket; all closed markables are in a chain -/
def renderClosing (m2c : Dict NodeId NodeId) (m : NodeId) : List Char :=
  match Dict.find m2c m with
  | some c => [']', '_', '{'] ++ c.chars ++ ['}']
  | none => []

/-- brackets.py:107-122: formatting of a token -/
def BracketToken.render (m2c : Dict NodeId NodeId) (b : BracketToken) : List Char :=
  List.replicate b.opened '[' ++ b.token ++ b.closed.flatMap (renderClosing m2c) ++ [' ']

/-- brackets.py:72-123 `gen_bracketed_output` -/
def genBracketedOutput (fuel : Nat) (g : DG) (layer : Option String) : Except PyErr (List Char) := do
  let chains ← getPointingChains fuel g layer
  let bs ← g.bracketList (g.corefNamespace layer) chains
  return bs.flatMap (BracketToken.render (markable2chain chains))

end DG
end Dg
