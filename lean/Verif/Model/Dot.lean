/-
Model of src/discoursegraphs/readwrite/dot.py on characters.
-/
import Verif.Model.Text
import Verif.Model.Graph

namespace Dg

/-- `QUOTE_RE.sub(r'\\"', string)`, dot.py:16, 27: every quote becomes backslash + quote -/
def escapeQuotes (cs : List Char) : List Char := cs.flatMap (fun c => if c = '"' then ['\\', '"'] else [c])

/-- `quote_for_pydot(string)` for a string, dot.py:20-28 -/
def quoteChars (cs : List Char) : List Char := '"' :: (escapeQuotes cs ++ ['"'])

/-- `.replace('\\"', '"')`, dot.py:35 -/
def unescapeQuotes : List Char → List Char
  | [] => []
  | [c] => [c]
  | a :: b :: cs => if a = '\\' ∧ b = '"' then '"' :: unescapeQuotes cs else a :: unescapeQuotes (b :: cs)

/-- `$` also matches in front of a line break at the end of the string -/
def dropFinalNewline (cs : List Char) : List Char := if cs.getLast? = some '\n' then cs.dropLast else cs

/-- `UNQUOTE_RE.match(string).groups()[0]`, dot.py:17, 35, for the pattern `^"(.*)"$`; `.` matches everything but a line break; AttributeError (of
`None.groups`) if there is no match -/
def unquoteBody (cs : List Char) : Except PyErr (List Char) :=
  match dropFinalNewline cs with
  | '"' :: rest =>
    if rest.getLast? = some '"' ∧ '\n' ∉ rest.dropLast then .ok rest.dropLast else .error .attribute
  | _ => .error .attribute

/-- `unquote_from_pydot(string)`, dot.py:31-35 -/
def unquoteChars (cs : List Char) : Except PyErr (List Char) := do
  let body ← unquoteBody cs
  .ok (unescapeQuotes body)

/-- `quote_for_pydot(x)` for a node ID, dot.py:20-28 -/
def quoteId (n : NodeId) : String := String.ofList (quoteChars n.chars)

/-- `quote_for_pydot(x)` for an attribute value: a string or an int; anything else raises TypeError in `re.sub` -/
def quoteVal : Val → Except PyErr String
  | .atom (.str s) => .ok (String.ofList (quoteChars s.toList))
  | .atom (.int i) => .ok (String.ofList (quoteChars (decimalInt i)))
  | _ => .error .type

/-- the attributes kept for a node or edge, dot.py:41-45, 51-55: the quoted label or nothing -/
def pydotLabel (a : Attrs) : Except PyErr (Option String) :=
  match Dict.find a "label" with
  | none => .ok none
  | some v => do
    let q ← quoteVal v
    .ok (some q)

/-- the graph handed to pydot: node name ↦ label, and the list of edges (source, target, label) -/
structure Stripped where
  name : String
  nodes : Dict String (Option String)
  edges : List (String × String × Option String)
  deriving DecidableEq, Repr

/-- networkx `add_nodes_from([(n, {'label': l})])`/`[(n, {})]`: a label given later replaces an earlier one -/
def putLabel (d : Dict String (Option String)) (n : String) (l : Option String) : Dict String (Option String) :=
  match l with
  | some x => Dict.put d n (some x)
  | none => match Dict.find d n with
    | some _ => d
    | none => Dict.put d n none

/-- `stripped_graph.add_nodes_from(_preprocess_nodes_for_pydot(...))`, dot.py:38-45, 76, 79 -/
def stripNodes : Dict NodeId Attrs → Dict String (Option String) → Except PyErr (Dict String (Option String))
  | [], d => .ok d
  | (n, a) :: rest, d => do
    let l ← pydotLabel a
    stripNodes rest (putLabel d (quoteId n) l)

/-- `_preprocess_edges_for_pydot(...)`, dot.py:48-55, 77; networkx 1.x `MultiDiGraph.add_edges_from` with 3-tuples adds one new edge per tuple -/
def stripEdges : List (NodeId × NodeId × Key × Attrs) → Except PyErr (List (String × String × Option String))
  | [] => .ok []
  | e :: es => do
    let l ← pydotLabel e.2.2.2
    let rest ← stripEdges es
    .ok ((quoteId e.1, quoteId e.2.1, l) :: rest)

/-- `preprocess_for_pydot(docgraph)`, dot.py:58-81.  Simplification: edge ends that are no nodes do not occur in a document graph, so adding edges adds no nodes. -/
def preprocessForPydot (g : DG) : Except PyErr Stripped := do
  let ns ← stripNodes g.nodes []
  let es ← stripEdges g.edges
  .ok ⟨g.name, ns, es⟩

end Dg
