/-
Reader of DeCour files (src/discoursegraphs/readwrite/decour.py): transcripts of court hearings.
The input is the content of a `<hearing>` element.
-/
import Verif.Model.RstGraph
import Verif.Model.Tiger

namespace Dg

/-- `element.text`: the text before the first child; None if there is none -/
abbrev XText := Option (List Char)

/-- a child of a `<turn>`: an `<act>` with its text, or an `<utterance>` with its number, its text (before the first child) and the texts of its children.  Simplification: other children of a turn, and the text after children, are not represented (the reader does not look at them). -/
inductive DecPart
  | act (text : XText)
  | utterance (nr : Option String) (text : XText) (children : List XText)
  deriving DecidableEq, Repr

/-- the text of an act -/
def DecPart.act? : DecPart → Option XText
  | .act x => some x
  | .utterance .. => none

/-- a `<turn>` element: its attribute `nrgen` and its children -/
structure DecTurn where
  nr : Option String
  parts : List DecPart
  deriving DecidableEq, Repr

/-- a `<hearing>` element: the first `<intro>` element and the first `<conclu>` element with their texts (`none`: there is no such element), and the turns -/
structure DecDoc where
  intro : Option XText
  turns : List DecTurn
  conclu : Option XText
  deriving DecidableEq, Repr

/-- the state of the reader -/
structure DecState where
  g : DG
  tokenCount : Nat
  actCount : Nat
  turns : List String
  utterances : List String

namespace DG

/-- `element.text.split()` -/
def decSplit : XText → Except PyErr (List (List Char))
  | some t => .ok (splitWs t)
  | none => .error .attribute

/-- `norm[i]` -/
def listAt (l : List (List Char)) (i : Nat) : Except PyErr (List Char) :=
  match l[i]? with
  | some x => .ok x
  | none => .error .index

/-- `'token_{}'.format(i)`, `'act_{}'.format(i)` -/
def numbered (pre : String) (i : Nat) : String := pre ++ String.ofList ('_' :: decimal i)

/-- decour.py:102-114 `_add_token_to_document` and the edge from the unit (lines 126, 134-139, 151-154) -/
def decAddToken (u : String) (attrs : Attrs) (st : DecState) (w : List Char) : Except PyErr DecState := do
  let t := numbered "token" st.tokenCount
  let g1 ← st.g.addNode (.str t) (.set [.str st.g.ns, .str (qual st.g.ns "token")]) (.dict (Dict.upd attrs [(qual st.g.ns "token", strVal w)])) []
  let g2 : DG := { g1 with tokens := g1.tokens ++ [.str t] }
  let g3 ← g2.addEdge (.str u) (.str t) (.set [.str g2.ns, .str (qual g2.ns "unit")]) none .none [("edge_type", .atom (.str spanningRelation))]
  return { st with g := g3, tokenCount := st.tokenCount + 1 }

/-- decour.py:143-149 `_add_dominance_relation` -/
def decAddUnit (g : DG) (source : NodeId) (u : String) : Except PyErr DG := do
  let g1 ← g.addNode (.str u) (.set [.str g.ns, .str (qual g.ns "unit")]) .none []
  g1.addEdge source (.str u) (.set [.str g1.ns, .str (qual g1.ns "discourse")]) none .none [("edge_type", .atom (.str dominanceRelation))]

/-- decour.py:129-141 `_add_token_span_to_document`, without counting the acts -/
def decAddSpan (u : String) (text : XText) (st : DecState) : Except PyErr DecState := do
  let ws ← decSplit text
  ws.foldlM (decAddToken u []) st

/-- decour.py:121-126: a word of an utterance -/
def decAddWord (u : String) (norm lemma' pos : List (List Char)) (st : DecState) (w : List Char × Nat) : Except PyErr DecState := do
  let n ← listAt norm w.2
  let l ← listAt lemma' w.2
  let p ← listAt pos w.2
  decAddToken u [(qual st.g.ns "norm", strVal n), (qual st.g.ns "lemma", strVal l), (qual st.g.ns "pos", strVal p)] st w.1

/-- decour.py:116-127 `_add_utterance_to_document` -/
def decAddUtterance (u : String) (text : XText) (children : List XText) (st : DecState) : Except PyErr DecState := do
  let cs ← mapE decSplit children
  match cs with
  | [norm, lemma', pos] => do
    let ws ← decSplit text
    let st1 ← ws.zipIdx.foldlM (decAddWord u norm lemma' pos) st
    return { st1 with utterances := st1.utterances ++ [u] }
  | _ => .error .value

/-- decour.py:86-90, 140-141: the first act of a turn -/
def decAddAct (turn : String) (t : DecTurn) (st : DecState) : Except PyErr DecState :=
  match t.parts.findSome? DecPart.act? with
  | none => .ok st
  | some text => do
    let u := numbered "act" st.actCount
    let g1 ← decAddUnit st.g (.str turn) u
    let st1 ← decAddSpan u text { st with g := g1 }
    return { st1 with actCount := st1.actCount + 1 }

/-- decour.py:92-95: the utterances of a turn -/
def decAddPart (turn : String) (st : DecState) (p : DecPart) : Except PyErr DecState :=
  match p with
  | .act _ => .ok st
  | .utterance none _ _ => .error .key
  | .utterance (some nr) text children => do
    let u := "utterance_" ++ nr
    let g1 ← decAddUnit st.g (.str turn) u
    decAddUtterance u text children { st with g := g1 }

/-- decour.py:82-95: a turn -/
def decAddTurn (st : DecState) (t : DecTurn) : Except PyErr DecState :=
  match t.nr with
  | none => .error .key
  | some nr => do
    let u := "turn_" ++ nr
    let g1 ← decAddUnit st.g st.g.root u
    let st1 ← decAddAct u t { st with g := g1, turns := st.turns ++ [u] }
    t.parts.foldlM (decAddPart u) st1

/-- decour.py:79-80: the introduction -/
def decAddIntro (st : DecState) (intro : Option XText) : Except PyErr DecState := do
  let g1 ← decAddUnit st.g st.g.root "intro"
  match intro with
  | none => .error .attribute
  | some text => decAddSpan "intro" text { st with g := g1 }

/-- decour.py:97-100: the conclusion -/
def decAddConclu (st : DecState) (conclu : Option XText) : Except PyErr DecState :=
  match conclu with
  | none => .ok st
  | some text => do
    let g1 ← decAddUnit st.g st.g.root "conclu"
    decAddSpan "conclu" text { st with g := g1 }

/-- decour.py:52-60: the graph before the document is read.  The root node of the base class (`discoursegraph:root_node`) stays in the graph. -/
def decStart (name ns : String) : Except PyErr DG :=
  ({ init "" "discoursegraph" none with name := name, ns := ns, root := .str (ns ++ ":root_node") }).addNode (.str (ns ++ ":root_node")) (.set [.str ns]) .none []

/-- decour.py:34-71 `DecourDocumentGraph(decour_filepath, name, namespace, precedence)`; `name` is the given name, or else the name of the file -/
def decRead (name ns : String) (precedence : Bool) (doc : DecDoc) : Except PyErr DecState := do
  let g0 ← decStart name ns
  let st1 ← decAddIntro { g := g0, tokenCount := 1, actCount := 1, turns := [], utterances := [] } doc.intro
  let st2 ← doc.turns.foldlM decAddTurn st1
  let st3 ← decAddConclu st2 doc.conclu
  if precedence then do
    let g ← batch st3.g.addPrecedenceRelations
    return { st3 with g := g }
  else .ok st3

end DG
end Dg
