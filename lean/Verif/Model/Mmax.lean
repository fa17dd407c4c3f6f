/-
Reader of MMAX2 projects (src/discoursegraphs/readwrite/mmax2.py).
The input is what the XML parser finds in the files of the project.  The common paths file and the names of the files are in Model/MmaxFiles (here, a file of markables is given by the ID of the document and the name of its level).  Not modelled: comments among the markables.
-/
import Verif.Model.Tiger
import Verif.Model.Coref

namespace Dg

/-- a `<word>` element: its ID and its text -/
structure MmaxWord where
  id : String
  text : Option String
  deriving DecidableEq, Repr

/-- An MMAX2 project with one document: the path of the base file, the `<word>` elements, the names of the annotation levels (the keys of `MMAXProject.annotations`), and the attributes of the markables in the file for a document and a level, if there is such a file. -/
structure MmaxProject where
  base : String
  words : List MmaxWord
  levels : List String
  file : String → String → Option (List XAttrs)

/-- `os.path.basename` -/
def baseName (cs : List Char) : List Char := ((splitChars '/' cs).getLast?).getD []

/-- mmax2.py:229-235 `get_file_id`: `os.path.basename(s)[:-5]` -/
def mmaxFileId (s : String) : String :=
  let b := baseName s.toList
  String.ofList (b.take (b.length - 5))

namespace DG

/-- mmax2.py:259-268: the body of the loop of `add_token_layer` (`ensure_unicode` raises a ValueError for a word without text) -/
def mmaxAddWord (connected : Bool) (g : DG) (w : MmaxWord) : Except PyErr DG := do
  let g1 : DG := { g with tokens := g.tokens ++ [.str w.id] }
  match w.text with
  | none => .error .value
  | some t =>
    let g2 ← g1.addNode (.str w.id) (.set [.str g1.ns, .str (qual g1.ns "token")]) (.dict [(qual g1.ns "token", .atom (.str t)), ("label", .atom (.str t))]) []
    if connected then g2.addEdge g2.root (.str w.id) (.set [.str g2.ns, .str (qual g2.ns "token")]) none .none [] else .ok g2

/-- The state while a level of annotation is read (mmax2.py:270-338): the graph, the content of the set `default_layers`, and the nodes and (first) edges that hold this very set object as their `layers` attribute. -/
structure MmaxState where
  g : DG
  layers : List Atom
  nodes : List NodeId
  edges : List (NodeId × NodeId)

/-- `self.add_node(n, layers=default_layers, attr_dict=ad, **attr)`: a new node holds the set, an existing one gets a new set (discoursegraph.py:259-273) -/
def mmaxAddNode (st : MmaxState) (n : NodeId) (ad : AttrArg) (attr : Attrs) : Except PyErr MmaxState := do
  let g ← st.g.addNode n (.set st.layers) ad attr
  return { st with g := g, nodes := if Dict.has st.g.nodes n then st.nodes.filter (· ≠ n) else n :: st.nodes }

/-- `self.add_edge(u, v, layers=default_layers, **attr)`: the first edge between two nodes holds the set, another one gets a new set (discoursegraph.py:461-485) -/
def mmaxAddEdge (st : MmaxState) (u v : NodeId) (attr : Attrs) : Except PyErr MmaxState := do
  let g ← st.g.addEdge u v (.set st.layers) none .none attr
  return { st with g := g, edges := if ((Dict.find st.g.adj u).bind (Dict.find · v)).isSome then st.edges else (u, v) :: st.edges }

/-- the `layers` attribute gets an additional element -/
def growLayers (l : Atom) (a : Attrs) : Attrs :=
  match Dict.find a "layers" with
  | some (.set xs) => Dict.put a "layers" (.set (setAdd xs l))
  | _ => a

/-- the layers of a node get an additional element -/
def growNode (l : Atom) (g : DG) (n : NodeId) : DG :=
  match Dict.find g.nodes n with
  | some a => { g with nodes := Dict.put g.nodes n (growLayers l a) }
  | none => g

/-- the layers of the first edge (key 0) between two nodes get an additional element -/
def growEdge (l : Atom) (g : DG) (e : NodeId × NodeId) : DG :=
  match (Dict.find g.adj e.1).bind (Dict.find · e.2) with
  | some kd =>
    match Dict.find kd (.int 0) with
    | some a => g.putKeyDict e.1 e.2 (Dict.put kd (.int 0) (growLayers l a))
    | none => g
  | none => g

/-- `default_layers.add(l)` (mmax2.py:327): all nodes and edges that hold the set are changed -/
def mmaxGrow (st : MmaxState) (l : Atom) : MmaxState :=
  { st with g := st.edges.foldl (growEdge l) (st.nodes.foldl (growNode l) st.g), layers := setAdd st.layers l }

/-- mmax2.py:291-305: an edge from the markable to a token.  (The tokens exist, so nothing is added in lines 294-300.) -/
def mmaxAddSpan (level : String) (m : NodeId) (st : MmaxState) (t : NodeId) : Except PyErr MmaxState :=
  mmaxAddEdge st m t [("edge_type", .atom (.str "spans")), ("label", .atom (.str (qual st.g.ns level)))]

/-- mmax2.py:315-338: an edge from the markable to an antecedent, given as `node` or `level:node` -/
def mmaxAddAntecedent (m : NodeId) (st : MmaxState) (ante : List Char) : Except PyErr MmaxState := do
  let parts := splitChars ':' ante
  let target := NodeId.str (String.ofList (parts.getLast?.getD []))
  let (label, st1) := match parts with
    | [l, _] => (String.ofList l ++ ":antecedent", mmaxGrow st (.str (qual st.g.ns (String.ofList l))))
    | _ => (":antecedent", st)
  let st2 ← if Dict.has st1.g.nodes target then .ok st1 else mmaxAddNode st1 target .none []
  mmaxAddEdge st2 m target [("edge_type", .atom (.str "points_to")), ("label", .atom (.str (st2.g.ns ++ label)))]

/-- mmax2.py:283-338: the body of the loop over the markables of a level (with `has_antecedent`, lines 341-358) -/
def mmaxAddMarkable (level : String) (st : MmaxState) (d : XAttrs) : Except PyErr MmaxState := do
  let i ← elemAttr d "id"
  let st1 ← mmaxAddNode st (.str i) (.dict (tigerFeats st.g.ns d)) [("label", .atom (.str (qual i level)))]
  let span ← elemAttr d "span"
  let ts ← st1.g.spanstring2tokens span
  let st2 ← ts.foldlM (mmaxAddSpan level (.str i)) st1
  match Dict.find d "anaphor_antecedent" with
  | none => return st2
  | some p => if p = "empty" then return st2 else (splitChars ';' p.toList).foldlM (mmaxAddAntecedent (.str i)) st2

/-- mmax2.py:270-338 `add_annotation_layer` -/
def mmaxAddLevel (g : DG) (level : String) (file : Option (List XAttrs)) : Except PyErr DG := do
  match file with
  | none => .error .assertion
  | some ms =>
    let st ← ms.foldlM (mmaxAddMarkable level) ⟨g, [.str g.ns, .str (qual g.ns "markable"), .str (qual g.ns level)], [], []⟩
    return st.g

/-- mmax2.py:203-212: the body of the loop over the sentences; the sentence node is added once per token -/
def mmaxSentence (st : DG × List (NodeId × List NodeId)) (d : XAttrs) : Except PyErr (DG × List (NodeId × List NodeId)) := do
  let i ← elemAttr d "id"
  let span ← elemAttr d "span"
  let ts ← st.1.spanstring2tokens span
  let toks := ts.filter (fun t => decide (t ∈ st.1.tokens))
  let g ← toks.foldlM (fun g _ => g.addNode (.str i) (.set [.str g.ns, .str (qual g.ns "sentence")]) .none []) st.1
  return (g, st.2 ++ [(.str i, toks)])

/-- mmax2.py:216-222 and 225-227: the tokens of a sentence node -/
def mmaxSentenceTokens (g : DG) (n : NodeId) : Except PyErr (NodeId × List NodeId) := do
  let ts ← g.markableSpan g.ns n
  return (n, ts.filter (fun t => decide (t ∈ g.tokens)))

/-- mmax2.py:169-223 `get_sentences_and_token_nodes`, the two lists zipped -/
def mmaxSentences (p : MmaxProject) (ignore : Bool) (g : DG) : Except PyErr (DG × List (NodeId × List NodeId)) :=
  if ignore then
    if "sentence" ∈ p.levels then
      match p.file (mmaxFileId g.name) "sentence" with
      | none => .error .io
      | some ms => ms.foldlM mmaxSentence (g, [])
    else .error .key
  else do
    let ns ← (g.selectNodesByLayer (.one (qual g.ns "sentence"))).all
    let ss ← mapE g.mmaxSentenceTokens ns
    return (g, ss)

/-- mmax2.py:416-446 `sort_sentences_by_token_order`: IndexError for a sentence without tokens -/
def mmaxSort (ss : List (NodeId × List NodeId)) : Except PyErr (List (NodeId × List NodeId)) :=
  if ss.all (fun s => !s.2.isEmpty) then .ok (pySorted (fun a b => naturalLe (a.2.headD (.int 0)) (b.2.headD (.int 0))) ss) else .error .index

/-- a list of IDs as attribute value -/
def idListVal (ns : List NodeId) : Val := .list (ns.map tigerSentence2graph.idAtom)

/-- mmax2.py:162-167: the sentences of the document.  (`zip(*[])` has no elements to unpack: ValueError.) -/
def mmaxSetSentences (g : DG) (ss : List (NodeId × List NodeId)) : Except PyErr DG :=
  if ss = [] then .error .value
  else ss.foldlM (fun g s => g.setAttr s.1 "tokens" (idListVal s.2)) { g with sentences := ss.map Prod.fst }

/-- mmax2.py:95-167 `MMAXDocumentGraph(mmax_base_file, name, namespace, precedence, connected, ignore_sentence_annotations)`.  `order` is the order in which Python iterates over the names of the levels (a set or a dict; without "sentence" if sentence annotations are ignored). -/
def mmaxRead (name : Option String) (ns : String) (precedence connected ignore : Bool) (p : MmaxProject) (order : List String) : Except PyErr DG := do
  let g0 : DG := { init "" ns none with name := match name with
    | some n => if n = "" then String.ofList (baseName p.base.toList) else n
    | none => String.ofList (baseName p.base.toList) }
  let g1 ← ({ g0 with ns := ns, root := .str (qual ns "root_node") } : DG).addNode (.str (qual ns "root_node")) (.set [.str ns]) .none []
  let g2 ← if precedence then do
      let g ← p.words.foldlM (mmaxAddWord false) { g1 with tokens := [] }
      batch g.addPrecedenceRelations
    else p.words.foldlM (mmaxAddWord connected) { g1 with tokens := [] }
  let g3 ← order.foldlM (fun g level => g.mmaxAddLevel level (p.file (mmaxFileId p.base) level)) g2
  let (g4, ss) ← mmaxSentences p ignore g3
  let ss' ← mmaxSort ss
  g4.mmaxSetSentences ss'

end DG
end Dg
