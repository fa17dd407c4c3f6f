/-
Specification of Exmaralda import: documents described by positions instead of ID strings, and the calls that a document stands for.
-/
import Verif.Model.Exmaralda
import Verif.Spec.Script
import Verif.Spec.Offsets
import Mathlib.Data.List.Forall2

namespace Dg

/-- an event from the point in time `Ta` to the point in time `Tb` -/
structure XEvent where
  a : Nat
  b : Nat
  text : Option (List Char)
  deriving DecidableEq, Repr

/-- a tier of such events -/
structure XTier where
  id : List Char
  category : List Char
  type : List Char
  display : List Char
  events : List XEvent
  deriving DecidableEq, Repr

/-- the event in the file -/
def XEvent.exb (e : XEvent) : ExbEvent := ⟨exbT e.a, exbT e.b, e.text⟩

/-- the tier in the file -/
def XTier.exb (t : XTier) : ExbTier := ⟨t.id, t.category, t.type, t.display, t.events.map XEvent.exb⟩

/-- the node ID of a point in time (exmaralda.py uses the start point as the ID of a token) -/
def tNode (i : Nat) : NodeId := .str (String.ofList (exbT i))

/-- text, or the empty string -/
def XEvent.label (e : XEvent) : Val := .atom (.str (String.ofList (e.text.getD [])))

/-- every event of the tier covers exactly one token -/
def XTier.OneToken (t : XTier) : Prop := ∀ e ∈ t.events, e.b = e.a + 1

instance (t : XTier) : Decidable t.OneToken := by unfold XTier.OneToken; infer_instance

/-- node ID of a tier -/
def XTier.node (t : XTier) : NodeId := .str (String.ofList t.id)

/-- node ID of the `i`-th event of a tier -/
def XTier.spanNode (t : XTier) (i : Nat) : NodeId := .str (String.ofList (t.id ++ '_' :: decimal i))

namespace DG

/-- edges carry their type only -/
def edgeType (s : String) : Attrs := [("edge_type", .atom (.str s))]

/-- attributes of a tier node -/
def XTier.attrs (ns : String) (t : XTier) : Attrs :=
  [(qual ns "category", .atom (.str (String.ofList t.category))), (qual ns "type", .atom (.str (String.ofList t.type))), (qual ns "display-name", .atom (.str (String.ofList t.display)))]

/-- attributes of a span node -/
def XEvent.attrs (ns : String) (e : XEvent) : Attrs := [(qual ns "annotation", e.label), ("label", e.label)]

/-- the calls for one event of a span tier: a node, an edge from the tier, an edge to each covered token -/
def spanScript (ns : String) (t : XTier) (p : XEvent × Nat) : List Instr :=
  [.node (t.spanNode p.2) [ns, qual ns "span"] (XEvent.attrs ns p.1), .edge t.node (t.spanNode p.2) [ns] (edgeType "dominates")] ++
    (List.range' p.1.a (p.1.b - p.1.a)).map (fun j => .edge (t.spanNode p.2) (tNode j) [ns] (edgeType "spans"))

/-- the calls for a tier: token strings, token annotations, or spans -/
def tierScript (ns : String) (tokenTier : List Char) (t : XTier) : List Instr :=
  if t.category = tokenTier then t.events.map (fun e => .attr (tNode e.a) (qual ns "token") (exbVal e.text))
  else if t.OneToken then t.events.map (fun e => .attr (tNode e.a) (qual ns (String.ofList t.category)) e.label)
  else [.node t.node [ns, qual ns "tier"] (XTier.attrs ns t), .edge (.str (ns ++ ":root_node")) t.node [ns] (edgeType "dominates")] ++ t.events.zipIdx.flatMap (spanScript ns t)

/-- the calls for a document: the points in time `ids` become tokens, then the tiers -/
def exbScript (ns : String) (tokenTier : List Char) (ids : List (List Char)) (ts : List XTier) : List Instr :=
  ids.flatMap (fun i => [.node (.str (String.ofList i)) [ns] [], .token (.str (String.ofList i))]) ++ ts.flatMap (tierScript ns tokenTier)

/-- events of the token tier cover one token; events that annotate one token refer to a point of the timeline -/
def TierOk (tokenTier : List Char) (ids : List (List Char)) (t : XTier) : Prop :=
  (t.category = tokenTier → t.OneToken) ∧ ((t.category = tokenTier ∨ t.OneToken) → ∀ e ∈ t.events, exbT e.a ∈ ids)

instance (tokenTier : List Char) (ids : List (List Char)) (t : XTier) : Decidable (TierOk tokenTier ids t) := by unfold TierOk; infer_instance

end DG
end Dg

/-! ### export -/

namespace Dg
namespace DG

/-- attributes of tokens that are exported to a tier of their own -/
def ExportedAttrib (a : String) : Prop :=
  a ≠ "layers" ∧ a ≠ "label" ∧ lastPart a ∉ [['t', 'o', 'k', 'e', 'n'], ['i', 'd'], ['w', 'o', 'r', 'd'], ['m', 'o', 'r', 'p', 'h'], ['l', 'e', 'm', 'm', 'a']]

/-- the tier of the tokens: one event per token -/
def tokTier (strs : List String) : XTier := ⟨exbTie 0, ['t', 'o', 'k'], ['t'], ['[', 't', 'o', 'k', ']'], strs.zipIdx.map (fun p => ⟨p.2, p.2 + 1, some p.1.toList⟩)⟩

/-- the tier of an attribute: an event for each token that has the attribute -/
structure AttribTier (g : DG) (a : String) (t : XTier) : Prop where
  category : t.category = lastPart a
  type : t.type = ['t']
  display : t.display = '[' :: a.toList ++ [']']
  nodup : t.events.Nodup
  events : ∀ e, e ∈ t.events ↔ ∃ n s, g.tokens[e.a]? = some n ∧ g.nodeAttr n a = some (.atom (.str s)) ∧ e.b = e.a + 1 ∧ e.text = some s.toList
  strings : ∀ n ∈ g.tokens, ∀ v, g.nodeAttr n a = some v → ∃ s, v = .atom (.str s)

/-- the event extends from the first to the last of the tokens below the node -/
structure EventOf (g : DG) (n : NodeId) (e : XEvent) : Prop where
  first : ∃ m, g.tokens[e.a]? = some m ∧ g.IsToken m ∧ g.Spans n m
  last : ∃ m i, e.b = i + 1 ∧ g.tokens[i]? = some m ∧ g.IsToken m ∧ g.Spans n m
  between : ∀ m i, g.tokens[i]? = some m → g.IsToken m → g.Spans n m → e.a ≤ i ∧ i < e.b

/-- the label of a node, if it has one, or the empty string -/
def LabelOf (g : DG) (n : NodeId) (s : List Char) : Prop := ((g.nodeAttr n "label").getD (.atom (.str ""))) = .atom (.str (String.ofList s))

/-- the tier of an annotation layer: an event for each of its nodes below which there are tokens -/
structure LayerTier (g : DG) (l : String) (t : XTier) : Prop where
  category : t.category = lastPart l
  type : t.type = ['t']
  display : t.display = '[' :: l.toList ++ [']']
  events : ∃ ns : List NodeId, ns.Nodup ∧ (∀ n, n ∈ ns ↔ g.NodeLayer n (.str l) ∧ ∃ m, g.IsToken m ∧ g.Spans n m) ∧
    List.Forall₂ (fun n e => g.EventOf n e ∧ ∃ s, e.text = some s ∧ g.LabelOf n s) ns t.events

/-- the tier of a chain: an event for each of its elements below which there are tokens; `i` = number of the chain -/
structure ChainTier (g : DG) (p : List NodeId × Nat) (t : XTier) : Prop where
  category : t.category = ['c', 'h', 'a', 'i', 'n']
  type : t.type = ['t']
  display : t.display = "[coref-chain-".toList ++ decimal p.2 ++ [']']
  events : ∃ ns : List (NodeId × Nat), ns.Sublist p.1.zipIdx ∧ (∀ q ∈ p.1.zipIdx, q ∈ ns ↔ ∃ m, g.IsToken m ∧ g.Spans q.1 m) ∧
    List.Forall₂ (fun q e => g.EventOf q.1 e ∧ e.text = some ("chain_".toList ++ decimal p.2 ++ [':', ' '] ++ decimal (p.1.length - q.2) ++ '/' :: decimal p.1.length)) ns t.events

/-- the natural order of the token IDs is the order of the tokens in the text -/
def NaturalTokens (g : DG) : Prop := g.tokens.Pairwise (fun a b => naturalLe b a = false)

end DG
end Dg

/-! ### the imported graph -/

namespace Dg
namespace DG

/-- some event of the tier does not cover exactly one token (and the tier is not the token tier) -/
def SpanTier (tokenTier : List Char) (t : XTier) : Prop := t.category ≠ tokenTier ∧ ¬ t.OneToken

instance (tokenTier : List Char) (t : XTier) : Decidable (SpanTier tokenTier t) := by unfold SpanTier; infer_instance

/-- nodes of an imported document: the points in time and, for each span tier, the tier and its events -/
inductive XNode (ns : String) (tokenTier : List Char) (ids : List (List Char)) (ts : List XTier) : NodeId → Prop
  | time {i : List Char} : i ∈ ids → XNode ns tokenTier ids ts (.str (String.ofList i))
  | root {t : XTier} : t ∈ ts → SpanTier tokenTier t → XNode ns tokenTier ids ts (.str (ns ++ ":root_node"))
  | tier {t : XTier} : t ∈ ts → SpanTier tokenTier t → XNode ns tokenTier ids ts t.node
  | span {t : XTier} {i : Nat} {e : XEvent} : t ∈ ts → SpanTier tokenTier t → t.events[i]? = some e → XNode ns tokenTier ids ts (t.spanNode i)
  | covered {t : XTier} {e : XEvent} {j : Nat} : t ∈ ts → SpanTier tokenTier t → e ∈ t.events → e.a ≤ j → j < e.b → XNode ns tokenTier ids ts (tNode j)

/-- edges of an imported document: root → tier → event → covered tokens -/
inductive XEdge (ns : String) (tokenTier : List Char) (ts : List XTier) : NodeId → NodeId → String → Prop
  | tier {t : XTier} : t ∈ ts → SpanTier tokenTier t → XEdge ns tokenTier ts (.str (ns ++ ":root_node")) t.node "dominates"
  | span {t : XTier} {i : Nat} {e : XEvent} : t ∈ ts → SpanTier tokenTier t → t.events[i]? = some e → XEdge ns tokenTier ts t.node (t.spanNode i) "dominates"
  | token {t : XTier} {i j : Nat} {e : XEvent} : t ∈ ts → SpanTier tokenTier t → t.events[i]? = some e → e.a ≤ j → j < e.b → XEdge ns tokenTier ts (t.spanNode i) (tNode j) "spans"

/-- the attribute and value that an event of a tier of one-token events stands for -/
def annotation (ns : String) (tokenTier : List Char) (t : XTier) (e : XEvent) : String × Val :=
  if t.category = tokenTier then (ns ++ (":" ++ "token"), exbVal e.text) else (ns ++ (":" ++ String.ofList t.category), e.label)

/-- the IDs of points in time, span tiers and their events do not clash -/
def XDistinct (tokenTier : List Char) (ids : List (List Char)) (ts : List XTier) : Prop :=
  (ids.map (fun i => NodeId.str (String.ofList i)) ++ (ts.filter (fun t => SpanTier tokenTier t)).flatMap (fun t => t.node :: (List.range t.events.length).map t.spanNode)).Nodup

end DG
end Dg
