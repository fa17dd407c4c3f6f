/-
The CoNLL 2009 writer (src/discoursegraphs/readwrite/conll.py:338-467).
-/
import Verif.Model.Chains
import Verif.Model.Offsets
import Verif.Model.Tree

namespace Dg
namespace DG

/-- `markable2chains[markable].append(chain_id)` on a `defaultdict(list)` -/
def appendTo {α : Type} (d : Dict NodeId (List α)) (m : NodeId) (x : α) : Dict NodeId (List α) := Dict.put d m ((Dict.find d m).getD [] ++ [x])

/-- conll.py:382-384: which chains (by number) a markable belongs to -/
def chainNumbers : Nat → List (List NodeId) → Dict NodeId (List Nat) → Dict NodeId (List Nat)
  | _, [], d => d
  | i, c :: cs, d => chainNumbers (i + 1) cs (c.foldl (fun d m => appendTo d m i) d)

/-- conll.py:376-387: `tok2markables`, `markable2toks`, `markable2chains` and `singleton_id` -/
structure ConllMaps where
  tokMarks : Dict NodeId (List NodeId)
  markToks : Dict NodeId (List NodeId)
  markChains : Dict NodeId (List Nat)
  nextId : Nat
  deriving Repr

/-- conll.py:393-401: the body of the loop over the markables; `fuel` = remaining recursion depth of get_span.  The elements of the sets in `tok2markables` are kept in the order
in which they were added (Python 2: arbitrary order; the theorems do not depend on it). -/
def conllAddMarkable (fuel : Nat) (g : DG) (st : ConllMaps) (m : NodeId) : Except PyErr ConllMaps := do
  let span ← g.getSpan fuel m
  let tokMarks := span.foldl (fun d t => Dict.put d t (setAdd ((Dict.find d t).getD []) m)) st.tokMarks
  let markToks := Dict.put st.markToks m span
  if Dict.has st.markChains m then return ⟨tokMarks, markToks, st.markChains, st.nextId⟩
  else return ⟨tokMarks, markToks, Dict.put st.markChains m [st.nextId], st.nextId + 1⟩

/-- what follows after a generator was exhausted: the exception that ended it, if any -/
def afterGen {α : Type} (e : Option PyErr) (x : α) : Except PyErr α :=
  match e with
  | some e => .error e
  | none => .ok x

/-- conll.py:358-403 `__build_markable_token_mapper` -/
def conllMaps (fuel : Nat) (g : DG) (corefLayer : Option String) (markableLayer : String) : Except PyErr ConllMaps := do
  let chains ← getPointingChains fuel g corefLayer
  let ms := g.selectNodesByLayer (.one markableLayer)
  let st ← ms.1.foldlM (conllAddMarkable fuel g) ⟨[], [], chainNumbers 0 chains [], chains.length⟩
  afterGen ms.2 st

/-- one entry of the coreference column: the markable it stands for, the number of the chain, whether the markable begins resp. ends at this token -/
structure ConllEntry where
  markable : NodeId
  chain : Nat
  opens : Bool
  closes : Bool
  deriving DecidableEq, Repr

/-- conll.py:438-467 `__gen_coref_str`, before formatting; `span.index(token_id)` raises ValueError if the token is not in the span -/
def conllEntry (st : ConllMaps) (t m : NodeId) (chain : Nat) : Except PyErr ConllEntry :=
  let span := (Dict.find st.markToks m).getD []
  if t ∈ span then .ok ⟨m, chain, decide (span.idxOf t = 0), decide (span.idxOf t + 1 = span.length)⟩
  else .error .value

/-- conll.py:417-424: the entries for all chains of a markable -/
def conllEntries (st : ConllMaps) (t m : NodeId) : Except PyErr (List ConllEntry) := mapE (conllEntry st t m) ((Dict.find st.markChains m).getD [])

/-- conll.py:413-428: the coreference column of a token; `none` stands for `_` -/
def conllCoref (st : ConllMaps) (t : NodeId) : Except PyErr (Option (List ConllEntry)) :=
  match Dict.find st.tokMarks t with
  | none => .ok none
  | some ms => do
    let es ← mapE (conllEntries st t) ms
    return some es.flatten

/-- a row of the file -/
structure ConllRow where
  number : Nat
  token : List Char
  coref : Option (List ConllEntry)
  deriving DecidableEq, Repr

/-- conll.py:413-431: the row of a token -/
def conllRow (g : DG) (st : ConllMaps) (i : Nat) (t : NodeId) : Except PyErr ConllRow := do
  let c ← conllCoref st t
  let v ← g.getToken t
  let s ← fmtVal v
  return ⟨i, s, c⟩

/-- conll.py:413: `enumerate(tokens, i)` -/
def conllRowsFrom (g : DG) (st : ConllMaps) : Nat → List NodeId → Except PyErr (List ConllRow)
  | _, [] => .ok []
  | i, t :: ts => do
    let r ← g.conllRow st i t
    let rs ← conllRowsFrom g st (i + 1) ts
    return r :: rs

/-- a node ID stored in a list of attribute values -/
def rowTokenId : Atom → Except PyErr NodeId
  | .str s => .ok (.str s)
  | .int i => .ok (.int i)
  | _ => .error .key

/-- conll.py:413: `dg.node[sentence_id]['tokens']`; TypeError if it is no list (simplification for values that are other iterables) -/
def sentenceTokens (g : DG) (s : NodeId) : Except PyErr (List NodeId) := do
  let v ← g.getAttr s "tokens"
  match v with
  | .list xs => mapE rowTokenId xs
  | _ => .error .type

/-- conll.py:412-433: the rows of a sentence -/
def conllSentence (g : DG) (st : ConllMaps) (s : NodeId) : Except PyErr (List ConllRow) := do
  let ts ← g.sentenceTokens s
  g.conllRowsFrom st 1 ts

/-- conll.py:405-436: the rows of all sentences -/
def conllRows (fuel : Nat) (g : DG) (corefLayer : Option String) (markableLayer : Option String) : Except PyErr (List (List ConllRow)) := do
  let st ← conllMaps fuel g corefLayer (markableLayer.getD (qual g.ns "markable"))
  mapE (g.conllSentence st) g.sentences

/-- conll.py:460-467: formatting of an entry -/
def ConllEntry.render (e : ConllEntry) : List Char :=
  (if e.opens then ['('] else []) ++ decimal e.chain ++ (if e.closes then [')'] else [])

/-- conll.py:425, 428: formatting of the coreference column -/
def renderCoref : Option (List ConllEntry) → List Char
  | none => ['_']
  | some es => joinChars ['|'] (es.map ConllEntry.render)

/-- conll.py:431-433: formatting of a row -/
def ConllRow.render (r : ConllRow) : List Char :=
  decimal r.number ++ '\t' :: r.token ++ (List.replicate 12 ['\t', '_']).flatten ++ '\t' :: renderCoref r.coref ++ ['\n']

/-- conll.py:405-436 `Conll2009File.__str__` -/
def conllStr (fuel : Nat) (g : DG) (corefLayer : Option String) (markableLayer : Option String) : Except PyErr (List Char) := do
  let ss ← conllRows fuel g corefLayer markableLayer
  return "#begin document (__); __\n".toList ++ ss.flatMap (fun rs => rs.flatMap ConllRow.render ++ ['\n']) ++ "#end document".toList

end DG
end Dg
