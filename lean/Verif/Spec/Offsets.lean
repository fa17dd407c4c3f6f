/-
Specification vocabulary for tokens, offsets and spans (C13-C17).
-/
import Verif.Spec.GraphView
import Verif.Model.Offsets
import Mathlib.Data.List.Forall2

namespace Dg
namespace DG

/-- `g.node[t][g.ns+':token'] == s` -/
def TokenStr (g : DG) (t : NodeId) (s : String) : Prop := g.nodeAttr t (g.ns ++ (":" ++ "token")) = some (.atom (.str s))

/-- the tokens of the document, in order, have the strings `strs` -/
def HasTokens (g : DG) (strs : List String) : Prop := List.Forall₂ g.TokenStr g.tokens strs

/-- character position at which the `i`-th of `strs` starts when they are joined with single blanks -/
def startOf (strs : List String) (i : Nat) : Nat := ((strs.take i).map (fun s => s.toList.length + 1)).sum

/-- character position after the `i`-th of `strs` -/
def endOf (strs : List String) (i : Nat) : Nat := startOf strs i + (strs.getD i "").toList.length

/-- `g.node[t]` holds these offsets in namespace `ns` -/
def OffsetsAt (g : DG) (ns : String) (t : NodeId) (onset offset : Nat) : Prop :=
  g.nodeAttr t (ns ++ (":" ++ "onset")) = some (.atom (.int onset)) ∧ g.nodeAttr t (ns ++ (":" ++ "offset")) = some (.atom (.int offset))

/-- only the offset attributes of the nodes `ts` may differ between `g` and `g'` -/
structure OnlyOffsetsChanged (g g' : DG) (ns : String) (ts : List NodeId) : Prop where
  nodes : Dict.keys g'.nodes = Dict.keys g.nodes
  attrs : ∀ n k, k ≠ ns ++ (":" ++ "onset") → k ≠ ns ++ (":" ++ "offset") → g'.nodeAttr n k = g.nodeAttr n k
  others : ∀ n, n ∉ ts → g'.nodeAttrs n = g.nodeAttrs n
  edges : g'.adj = g.adj
  rest : SameMeta g g'

/-- there is a non-pointing edge from `u` to another node `v` -/
def SpanEdge (g : DG) (u v : NodeId) : Prop :=
  u ≠ v ∧ ∃ k a x, g.edgeAttrs u v k = some a ∧ Dict.find a "edge_type" = some x ∧ x ≠ .atom (.str "points_to")

/-- `v` can be reached from `u` via non-pointing edges -/
inductive Spans (g : DG) : NodeId → NodeId → Prop
  | refl (u : NodeId) : Spans g u u
  | step {u v w : NodeId} : SpanEdge g u v → Spans g v w → Spans g u w

/-- no cycle of non-pointing edges (self-loops do not count) -/
def SpanAcyclic (g : DG) : Prop := ∀ u v, g.SpanEdge u v → ¬ g.Spans v u

/-- every edge has an `edge_type` -/
def Typed (g : DG) : Prop := ∀ u v k a, g.edgeAttrs u v k = some a → ∃ x, Dict.find a "edge_type" = some x

/-- `n` is a token node -/
def IsToken (g : DG) (n : NodeId) : Prop := ∃ x, g.nodeAttr n (g.ns ++ (":" ++ "token")) = some x

/-- offsets stored in namespace `ns`, where both are present, are the right ones -/
def GoodOffsets (g : DG) (ns : String) (strs : List String) : Prop :=
  ∀ (i : Nat) t x y, g.tokens[i]? = some t → g.nodeAttr t (ns ++ (":" ++ "onset")) = some x → g.nodeAttr t (ns ++ (":" ++ "offset")) = some y →
    x = .atom (.int (startOf strs i)) ∧ y = .atom (.int (endOf strs i))

end DG
end Dg
