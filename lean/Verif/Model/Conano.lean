/-
Conano reader, src/discoursegraphs/readwrite/conano.py, for tokenize=True and precedence=False.  The XML document is modelled as a tree of elements: parsing (lxml) is trusted, comments and processing
instructions are not considered.
-/
import Verif.Model.Anaphoricity
import Verif.Model.Dis
import Verif.Model.Offsets

namespace Dg

/-- an XML element: tag, attributes, text before the first child, children, text after the element (lxml's `tail`); a missing text is the empty text (the code tests `if element.text`) -/
inductive CElem
  | elem (tag : String) (attrib : Dict String String) (text : List Char) (kids : List CElem) (tail : List Char)
  deriving Repr

namespace CElem
/-- `element.attrib` -/
def attrib : CElem → Dict String String
  | elem _ a _ _ _ => a

/-- `element.tail` -/
def tail : CElem → List Char
  | elem _ _ _ _ t => t
end CElem

/-- `element.attrib[k]` -/
def xmlAttr (a : Dict String String) (k : String) : Except PyErr String :=
  match Dict.find a k with
  | some v => .ok v
  | none => .error .key

/-- conano.py:92-103: node ID and layers of an element; `up` = attributes of the parent element.  (`getparent()` is None for the document's root: AttributeError) -/
def conanoId (ns tag : String) (a : Dict String String) (up : Option (Dict String String)) : Except PyErr (String × List String) :=
  if tag = "unit" then do
    let i ← xmlAttr a "id"
    let t ← xmlAttr a "type"
    return (i ++ (":" ++ t), [ns, qual ns "unit", qual ns t])
  else if tag = "connective" then do
    let i ← xmlAttr a "id"
    return (i ++ ":connective", [ns, qual ns "connective"])
  else if tag = "discourse" then return ("discourse", [ns])
  else
    match up with
    | none => .error .attribute
    | some b => do
      let i ← xmlAttr b "id"
      return (i ++ (":" ++ tag), [ns, qual ns "modifier"])

namespace DG

/-- `'token:{}'.format(self.token_count)` -/
def conanoTokenId (n : Nat) : NodeId := .str (String.ofList ("token:".toList ++ decimal n))

/-- conano.py:134-146 `_add_token`; the state is the graph and `token_count`.  (`parent_node` is the string 'root' only if given as such, which is never the case as element IDs contain a colon or are 'discourse'.) -/
def conanoAddToken (parent : NodeId) (st : DG × Nat) (token : List Char) : Except PyErr (DG × Nat) := do
  let id := conanoTokenId st.2
  let g1 ← st.1.addNode id (.set [.str st.1.ns, .str (qual st.1.ns "token")]) (.dict [(qual st.1.ns "token", strVal token)]) []
  let g2 ← g1.addEdge parent id (.set [.str g1.ns]) none .none [("edge_type", .atom (.str "spans"))]
  return ({ g2 with tokens := g2.tokens ++ [id] }, st.2 + 1)

mutual
/-- conano.py:87-131 `_add_element`; `up` = attributes of the parent element -/
def conanoElem (up : Option (Dict String String)) (parent : NodeId) : CElem → DG × Nat → Except PyErr (DG × Nat)
  | .elem tag a text kids tail, st => do
    let (id, ls) ← conanoId st.1.ns tag a up
    let g1 ← st.1.addNode (.str id) (.set (ls.map Atom.str)) .none []
    let g2 ← g1.addEdge parent (.str id) (.set [.str g1.ns]) none .none [("edge_type", .atom (.str "dominates"))]
    let st1 ← (splitWs text).foldlM (conanoAddToken (.str id)) (g2, st.2)
    let st2 ← conanoElems (some a) (.str id) kids st1
    (splitWs tail).foldlM (conanoAddToken parent) st2
/-- conano.py:120-121: the loop over the children -/
def conanoElems (up : Option (Dict String String)) (parent : NodeId) : List CElem → DG × Nat → Except PyErr (DG × Nat)
  | [], st => .ok st
  | e :: es, st => do
    let st1 ← conanoElem up parent e st
    conanoElems up parent es st1
end

mutual
/-- `etree.tostring(tree, method='text')`, conano.py:153: all text of the document -/
def plainText : CElem → List Char
  | .elem _ _ text kids tail => text ++ plainTexts kids ++ tail
/-- the text of a list of elements -/
def plainTexts : List CElem → List Char
  | [] => []
  | e :: es => plainText e ++ plainTexts es
end

/-- conano.py:155-161: comparison of the words with the tokens from number `i` on.  For different words the code raises an IndexError while building the error message: its format string has three
fields but only two arguments. -/
def conanoCompare (g : DG) : Nat → List (List Char) → Except PyErr Bool
  | _, [] => .ok true
  | i, w :: ws =>
    match g.tokens[i]? with
    | none => .error .index
    | some t => do
      let v ← g.getAttr t (qual g.ns "token")
      if v = strVal w then conanoCompare g (i + 1) ws else .error .index

/-- conano.py:148-162 `is_valid`; the words are separated by ASCII white space here, as the text is a byte string -/
def conanoValid (g : DG) (e : CElem) : Except PyErr Bool := conanoCompare g 0 (splitBy isAsciiSpace (plainText e))

/-- conano.py:84-85 -/
def conanoCheck (check : Bool) (e : CElem) (g : DG) : Except PyErr DG :=
  if check then do
    let b ← g.conanoValid e
    if b then return g else .error .assertion
  else return g

/-- conano.py:67-85 `ConanoDocumentGraph` -/
def conanoRead (name ns : String) (check : Bool) (e : CElem) : Except PyErr DG := do
  let g := { init "" ns none with name := name }
  let st ← conanoElem none g.root e (g, 1)
  conanoCheck check e st.1

/-- conano.py:165-190 `get_conano_units`: the units in natural order, with their tokens -/
def conanoUnits (fuel : Nat) (g : DG) (ns : String) : Gen (NodeId × List NodeId) :=
  let sel := g.selectNodesByLayer (.one (qual ns "unit"))
  match sel.2 with
  | some e => ([], some e)
  | none => Gen.collect (fun n => do let s ← g.getSpan fuel n; return some (n, s)) (naturalSorted sel.1)

/-- `docgraph.get_token(tok_id).lower()`.  (Simplification: ASCII letters only.) -/
def lowerToken (g : DG) (n : NodeId) : Except PyErr (List Char) := do
  let v ← g.getToken n
  match v with
  | .atom (.str s) => return s.toList.map Char.toLower
  | _ => .error .attribute

/-- conano.py:193-200 `get_connective`: ValueError unless the ID consists of two parts -/
def getConnective (fuel : Nat) (g : DG) (unit : String) : Except PyErr (List Char) :=
  match splitChars ':' unit.toList with
  | [i, _] => do
    let s ← g.getSpan fuel (.str (String.ofList (i ++ ":connective".toList)))
    let ts ← mapE g.lowerToken s
    return joinChars [' '] ts
  | _ => .error .value

end DG
end Dg
