/-
Exmaralda export and import, src/discoursegraphs/readwrite/exmaralda.py.  The XML document is modelled as a data structure; lxml's serialisation and parsing is trusted
(the only effect that is modelled is that an empty text is read back as "no text", `Exb.reparsed`).
-/
import Verif.Model.Chains
import Verif.Model.Offsets
import Verif.Model.Select
import Verif.Model.Conll
import Verif.Model.Spanstring

namespace Dg

/-- `<event start="…" end="…">text</event>` -/
structure ExbEvent where
  start : List Char
  stop : List Char
  text : Option (List Char)
  deriving DecidableEq, Repr

/-- `<tier id="…" category="…" type="…" display-name="…">` -/
structure ExbTier where
  id : List Char
  category : List Char
  type : List Char
  display : List Char
  events : List ExbEvent
  deriving DecidableEq, Repr

/-- the `<common-timeline>` (IDs and times; times are restricted to integers, which is what the writer produces) and the tiers of an Exmaralda document -/
structure Exb where
  timeline : List (List Char × Int)
  tiers : List ExbTier
  deriving DecidableEq, Repr

/-- what is parsed after an event was serialised: an empty text is no text -/
def ExbEvent.reparsed (e : ExbEvent) : ExbEvent := { e with text := if e.text = some [] then none else e.text }

/-- what is parsed after a document was serialised -/
def Exb.reparsed (d : Exb) : Exb := { d with tiers := d.tiers.map (fun t => { t with events := t.events.map ExbEvent.reparsed }) }

/-- `"T{}".format(i)` -/
def exbT (i : Nat) : List Char := 'T' :: decimal i

/-- `"TIE{}".format(i)` -/
def exbTie (i : Nat) : List Char := ['T', 'I', 'E'] ++ decimal i

/-- `s.split(':')[-1]` -/
def lastPart (s : String) : List Char := (splitChars ':' s.toList).getLast?.getD []

/-- text content given to lxml's ElementMaker: TypeError unless it is a string.  (Simplifications: a dict would be added as attributes; characters that XML cannot represent, for which lxml
raises ValueError, are not considered.) -/
def exbText : Val → Except PyErr (List Char)
  | .atom (.str s) => .ok s.toList
  | _ => .error .type

/-- exmaralda.py:452-476 `is_informative` -/
def isInformative (layer : String) : Bool :=
  !(["tiger", "tiger:token", "tiger:sentence:root", "tiger:sentence:vroot", "tiger:edge", "tiger:secedge", "exmaralda", "exmaralda:tier", "discoursegraph"].contains layer)

namespace DG

/-! ### export -/

/-- exmaralda.py:41-42 `toknode2id` (a later occurrence of a node ID overwrites an earlier one) -/
def tokenIndex : Nat → List NodeId → Dict NodeId Nat → Dict NodeId Nat
  | _, [], d => d
  | i, t :: ts, d => tokenIndex (i + 1) ts (Dict.put d t i)

/-- exmaralda.py:107-111: n+1 points in time -/
def exbTimeline (n : Nat) : List (List Char × Int) := (List.range (n + 1)).map (fun i => (exbT i, (i : Int)))

/-- exmaralda.py:223-227: attributes of token nodes that get no tier -/
def boringAttrib (a : String) : Bool :=
  ["layers", "label"].contains a || [['t', 'o', 'k', 'e', 'n'], ['i', 'd'], ['w', 'o', 'r', 'd'], ['m', 'o', 'r', 'p', 'h'], ['l', 'e', 'm', 'm', 'a']].contains (lastPart a)

/-- exmaralda.py:222-229: the attributes of one token -/
def addTokenAttribs (t : NodeId) (d : Dict String (Dict NodeId Val)) (p : String × Val) : Dict String (Dict NodeId Val) :=
  if boringAttrib p.1 then d else Dict.put d p.1 (Dict.put ((Dict.find d p.1).getD []) t p.2)

/-- exmaralda.py:220-229 `token_attribs`.  (Python 2 iterates over the dicts in arbitrary order; the model uses the order of insertion, and the theorems do not depend on it.) -/
def tokenAttribs (g : DG) : List NodeId → Dict String (Dict NodeId Val) → Except PyErr (Dict String (Dict NodeId Val))
  | [], d => .ok d
  | t :: ts, d =>
    match Dict.find g.nodes t with
    | none => .error .key
    | some a => tokenAttribs g ts (a.foldl (addTokenAttribs t) d)

/-- exmaralda.py:231-235: the events of the token tier -/
def exbTokenEvents (g : DG) : Nat → List NodeId → Except PyErr (List ExbEvent)
  | _, [] => .ok []
  | i, t :: ts => do
    let v ← g.getToken t
    let s ← exbText v
    let es ← exbTokenEvents g (i + 1) ts
    return ⟨exbT i, exbT (i + 1), some s⟩ :: es

/-- exmaralda.py:245-251: the event of a token in a token annotation tier -/
def exbAttribEvent (idx : Dict NodeId Nat) (p : NodeId × Val) : Except PyErr ExbEvent :=
  match Dict.find idx p.1 with
  | none => .error .key
  | some i => do
    let s ← exbText p.2
    return ⟨exbT i, exbT (i + 1), some s⟩

/-- exmaralda.py:238-252: the tiers for the attributes of tokens; `c` is `tier_count` -/
def exbAttribTiers (idx : Dict NodeId Nat) : Nat → Dict String (Dict NodeId Val) → Except PyErr (List ExbTier)
  | _, [] => .ok []
  | c, (a, d) :: rest => do
    let es ← mapE (exbAttribEvent idx) d
    let ts ← exbAttribTiers idx (c + 1) rest
    return ⟨exbTie c, lastPart a, ['t'], '[' :: a.toList ++ [']'], es⟩ :: ts

/-- exmaralda.py:255-271 `__span2event` (the span is not empty) -/
def exbSpan (idx : Dict NodeId Nat) (span : List NodeId) : Except PyErr (Nat × Nat) :=
  match span.head?.bind (Dict.find idx), span.getLast?.bind (Dict.find idx) with
  | some a, some b => .ok (a, b + 1)
  | _, _ => .error .key

/-- exmaralda.py:152: `docgraph.node[node_id].get('label', '')` -/
def labelOf (g : DG) (n : NodeId) : Except PyErr Val :=
  match Dict.find g.nodes n with
  | none => .error .key
  | some a => .ok ((Dict.find a "label").getD (.atom (.str "")))

/-- exmaralda.py:148-157: the event of a node, if it spans tokens -/
def exbNodeEvent (fuel : Nat) (g : DG) (idx : Dict NodeId Nat) (n : NodeId) : Except PyErr (Option ExbEvent) := do
  let span ← g.getSpan fuel n
  if span = [] then return none
  else
    let (a, b) ← exbSpan idx span
    let v ← g.labelOf n
    let s ← exbText v
    return some ⟨exbT a, exbT b, some s⟩

/-- exmaralda.py:127-158 `__add_annotation_tier` -/
def exbLayerTier (fuel : Nat) (g : DG) (idx : Dict NodeId Nat) (c : Nat) (layer : String) : Except PyErr ExbTier := do
  let ns := g.selectNodesByLayer (.one layer)
  let es ← mapE (g.exbNodeEvent fuel idx) ns.1
  let es ← afterGen ns.2 es
  return ⟨exbTie c, lastPart layer, ['t'], '[' :: layer.toList ++ [']'], es.filterMap id⟩

/-- exmaralda.py:116-121: the layers that get a tier; AttributeError (from `split`) for a layer that is no string -/
def exbLayers (removeRedundant : Bool) : List Atom → Except PyErr (List String)
  | [] => .ok []
  | .str l :: ls => do
    let rest ← exbLayers removeRedundant ls
    return if !removeRedundant || isInformative l then l :: rest else rest
  | _ :: _ => .error .attribute

/-- exmaralda.py:117-121: the tiers of the annotation layers -/
def exbLayerTiers (fuel : Nat) (g : DG) (idx : Dict NodeId Nat) : Nat → List String → Except PyErr (List ExbTier)
  | _, [] => .ok []
  | c, l :: ls => do
    let t ← g.exbLayerTier fuel idx c l
    let ts ← exbLayerTiers fuel g idx (c + 1) ls
    return t :: ts

/-- exmaralda.py:193-194: `"chain_{0}: {1}/{2}".format(i, chain_length-j, chain_length)` -/
def exbChainLabel (i j len : Nat) : List Char := "chain_".toList ++ decimal i ++ [':', ' '] ++ decimal (len - j) ++ '/' :: decimal len

/-- exmaralda.py:189-197: the events of a chain; `j` = position of the element -/
def exbChainEvents (fuel : Nat) (g : DG) (idx : Dict NodeId Nat) (i len : Nat) : Nat → List NodeId → Except PyErr (List ExbEvent)
  | _, [] => .ok []
  | j, n :: ns => do
    let span ← g.getSpan fuel n
    if span = [] then exbChainEvents fuel g idx i len (j + 1) ns
    else
      let (a, b) ← exbSpan idx span
      let es ← exbChainEvents fuel g idx i len (j + 1) ns
      return ⟨exbT a, exbT b, some (exbChainLabel i j len)⟩ :: es

/-- exmaralda.py:160-198 `__add_coreference_chain_tiers` (min_chain_length=3); `c` = tier_count, `i` = number of the chain -/
def exbChainTiers (fuel : Nat) (g : DG) (idx : Dict NodeId Nat) : Nat → Nat → List (List NodeId) → Except PyErr (List ExbTier)
  | _, _, [] => .ok []
  | c, i, ch :: chs => do
    if ch.length < 3 then exbChainTiers fuel g idx (c + 1) (i + 1) chs
    else
      let es ← g.exbChainEvents fuel idx i ch.length 0 ch
      let ts ← exbChainTiers fuel g idx (c + 1) (i + 1) chs
      return ⟨exbTie c, "chain".toList, ['t'], "[coref-chain-".toList ++ decimal i ++ [']'], es⟩ :: ts

/-- exmaralda.py:34-46, 98-125 `ExmaraldaFile`; the layers come in arbitrary order (here: the order in which they are found) -/
def exbWrite (fuel : Nat) (g : DG) (removeRedundant : Bool) : Except PyErr Exb := do
  let idx := tokenIndex 0 g.tokens []
  let attribs ← g.tokenAttribs g.tokens []
  let toks ← g.exbTokenEvents 0 g.tokens
  let at1 ← exbAttribTiers idx 1 attribs
  let layers ← g.getAnnotationLayers
  let ls ← exbLayers removeRedundant layers
  let lt ← g.exbLayerTiers fuel idx (1 + at1.length) ls
  let chains ← getPointingChains fuel g none
  let ct ← g.exbChainTiers fuel idx (1 + at1.length + lt.length) 0 chains
  return ⟨exbTimeline g.tokens.length, ⟨exbTie 0, "tok".toList, ['t'], "[tok]".toList, toks⟩ :: (at1 ++ lt ++ ct)⟩

/-! ### import -/

/-- exmaralda.py:425-428 `tokenid2index` -/
def tokenid2index (t : List Char) : Except PyErr Int := intOrError (t.drop 1)

/-- exmaralda.py:430-435 `indexdelta` -/
def indexDelta (stop start : List Char) : Except PyErr Int := do
  let a ← tokenid2index stop
  let b ← tokenid2index start
  return a - b

/-- exmaralda.py:437-449 `gen_token_range` -/
def genTokenRange (start stop : List Char) : Except PyErr (List (List Char)) := do
  let a ← tokenid2index start
  let b ← tokenid2index stop
  return (pyRange a b).map (fun i => 'T' :: decimalInt i)

/-- a node ID read from the document -/
def exbId (cs : List Char) : NodeId := .str (String.ofList cs)

/-- the text of an event as an attribute value -/
def exbVal : Option (List Char) → Val
  | some s => .atom (.str (String.ofList s))
  | none => .atom .none

/-- exmaralda.py:407-423 `get_token_ids`: IDs sorted by time -/
def exbTokenIds (d : Exb) : List (List Char) := (pySorted (fun (x y : List Char × Int) => decide (x.2 ≤ y.2)) d.timeline).map Prod.fst

/-- exmaralda.py:298-304: `DiscourseDocumentGraph.__init__()` without arguments, then new name, namespace and root (there is no node for this root) -/
def exbStart (name ns : String) : DG := { init "" "discoursegraph" none with name := name, ns := ns, root := .str (ns ++ ":root_node") }

/-- exmaralda.py:316-320 `__add_tokenization` -/
def exbAddToken (g : DG) (t : List Char) : Except PyErr DG := do
  let g1 ← g.addNode (exbId t) (.set [.str g.ns]) .none []
  return { g1 with tokens := g1.tokens ++ [exbId t] }

/-- exmaralda.py:349-354: the loop body of `__add_tokens` -/
def exbReadToken (g : DG) (e : ExbEvent) : Except PyErr DG := do
  let r ← genTokenRange e.start e.stop
  if r.length ≠ 1 then .error .assertion
  else g.setAttr (exbId e.start) (qual g.ns "token") (exbVal e.text)

/-- exmaralda.py:356-364 `is_token_annotation_tier` -/
def isTokenTier : List ExbEvent → Except PyErr Bool
  | [] => .ok true
  | e :: es => do
    let d ← indexDelta e.stop e.start
    if d ≠ 1 then return false else isTokenTier es

/-- exmaralda.py:371-374: the loop body of `__add_token_annotation_tier` -/
def exbReadAnno (category : List Char) (g : DG) (e : ExbEvent) : Except PyErr DG :=
  g.setAttr (exbId e.start) (qual g.ns (String.ofList category)) (.atom (.str (String.ofList (e.text.getD []))))

/-- exmaralda.py:388, 401, 404-405: `self.add_edge(u, v, edge_type=…)` -/
def exbEdge (g : DG) (u v : NodeId) (edgeType : String) : Except PyErr DG := g.addEdge u v (.atom .none) none .none [("edge_type", .atom (.str edgeType))]

/-- exmaralda.py:394 `'{}_{}'.format(tier_id, i)` -/
def exbSpanId (tier : List Char) (i : Nat) : NodeId := exbId (tier ++ '_' :: decimal i)

/-- exmaralda.py:394-405: the node of an event of a span tier -/
def exbReadSpan (tier : List Char) (g : DG) (i : Nat) (e : ExbEvent) : Except PyErr DG := do
  let r ← genTokenRange e.start e.stop
  let txt : Val := .atom (.str (String.ofList (e.text.getD [])))
  let g1 ← g.addNode (exbSpanId tier i) (.set [.str g.ns, .str (qual g.ns "span")]) (.dict [(qual g.ns "annotation", txt), ("label", txt)]) []
  let g2 ← g1.exbEdge (exbId tier) (exbSpanId tier i) "dominates"
  r.foldlM (fun g t => g.exbEdge (exbSpanId tier i) (exbId t) "spans") g2

/-- exmaralda.py:393-405: the loop over the events of a span tier -/
def exbReadSpans (tier : List Char) : Nat → List ExbEvent → DG → Except PyErr DG
  | _, [], g => .ok g
  | i, e :: es, g => do
    let g1 ← g.exbReadSpan tier i e
    exbReadSpans tier (i + 1) es g1

/-- exmaralda.py:376-405 `__add_span_tier` -/
def exbReadSpanTier (g : DG) (t : ExbTier) : Except PyErr DG := do
  let g1 ← g.addNode (exbId t.id) (.set [.str g.ns, .str (qual g.ns "tier")])
    (.dict [(qual g.ns "category", .atom (.str (String.ofList t.category))), (qual g.ns "type", .atom (.str (String.ofList t.type))),
      (qual g.ns "display-name", .atom (.str (String.ofList t.display)))]) []
  let g2 ← g1.exbEdge g1.root (exbId t.id) "dominates"
  exbReadSpans t.id 0 t.events g2

/-- exmaralda.py:322-335 `__add_tier` -/
def exbReadTier (tokenTier : List Char) (g : DG) (t : ExbTier) : Except PyErr DG :=
  if t.category = tokenTier then t.events.foldlM exbReadToken g
  else do
    let b ← isTokenTier t.events
    if b then t.events.foldlM (exbReadAnno t.category) g else g.exbReadSpanTier t

/-- exmaralda.py:276-314 `ExmaraldaDocumentGraph` -/
def exbRead (name ns : String) (tokenTier : List Char) (ignored : List (List Char)) (d : Exb) : Except PyErr DG := do
  let g ← (exbTokenIds d).foldlM exbAddToken (exbStart name ns)
  (d.tiers.filter (fun t => ignored = [] ∨ t.category ∉ ignored)).foldlM (exbReadTier tokenTier) g

end DG
end Dg
