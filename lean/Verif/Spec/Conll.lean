/-
Specification vocabulary for the CoNLL writer (C40).
-/
import Verif.Spec.Offsets
import Verif.Model.Conll

namespace Dg
namespace DG

/-- a node ID as a stored value -/
def tokenAtom : NodeId → Atom
  | .str s => .str s
  | .int i => .int i

/-- `g.node[s]['tokens'] == ts` -/
def SentenceTokens (g : DG) (s : NodeId) (ts : List NodeId) : Prop := g.nodeAttr s "tokens" = some (.list (ts.map tokenAtom))

/-- The chain numbers of a markable: the positions of the chains it is an element of; markables without chain (among the markables `ms`) are numbered consecutively after the chains. -/
def chainIds (chains : List (List NodeId)) (ms : List NodeId) (m : NodeId) : List Nat :=
  if m ∈ chains.flatten then (List.range chains.length).filter (fun i => decide (∃ c, chains[i]? = some c ∧ m ∈ c))
  else [chains.length + (ms.filter (fun x => decide (x ∉ chains.flatten))).idxOf m]

/-- What the coreference column of the token `t` has to contain: nothing (`_`) if no markable covers the token; otherwise, for each markable that covers it and each chain of the markable, exactly one
entry, which has an opening bracket iff the token is the first one of the markable and a closing bracket iff it is the last one. -/
def CorefColumn (chains : List (List NodeId)) (ms : List NodeId) (span : NodeId → List NodeId) (t : NodeId) : Option (List ConllEntry) → Prop
  | none => ∀ m ∈ ms, t ∉ span m
  | some es => (∃ m ∈ ms, t ∈ span m) ∧ es.Nodup ∧ ∀ e, e ∈ es ↔ e.markable ∈ ms ∧ t ∈ span e.markable ∧ e.chain ∈ chainIds chains ms e.markable ∧
      (e.opens = true ↔ (span e.markable).head? = some t) ∧ (e.closes = true ↔ (span e.markable).getLast? = some t)

end DG
end Dg
