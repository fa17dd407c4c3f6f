/-
A small vocabulary to say what a graph built by a reader contains: the reader's calls as a list of instructions ("script"), and the content of the resulting graph in terms of this list.
-/
import Verif.Spec.Layers

namespace Dg
namespace DG

/-- one call made by a reader -/
inductive Instr
  /-- `add_node(n, layers=set(layers), attr_dict=attrs)` -/
  | node (n : NodeId) (layers : List String) (attrs : Attrs)
  /-- `add_edge(u, v, layers=set(layers), attr_dict=attrs)` -/
  | edge (u v : NodeId) (layers : List String) (attrs : Attrs)
  /-- `self.node[n][k] = v` -/
  | attr (n : NodeId) (k : String) (v : Val)
  /-- `self.tokens.append(n)` -/
  | token (n : NodeId)
  /-- `self.sentences.append(n)` -/
  | sentence (n : NodeId)
  deriving DecidableEq, Repr

/-- the call itself -/
def Instr.exec (g : DG) : Instr → Except PyErr DG
  | .node n ls at' => g.addNode n (.set (ls.map Atom.str)) .none at'
  | .edge u v ls at' => g.addEdge u v (.set (ls.map Atom.str)) none .none at'
  | .attr n k v => g.setAttr n k v
  | .token n => .ok { g with tokens := g.tokens ++ [n] }
  | .sentence n => .ok { g with sentences := g.sentences ++ [n] }

/-- all calls, one after the other -/
def execs (g : DG) (s : List Instr) : Except PyErr DG := s.foldlM Instr.exec g

/-- the node is created by the call, if it does not exist -/
def Instr.Mentions (m : NodeId) : Instr → Prop
  | .node n _ _ => m = n
  | .edge u v _ _ => m = u ∨ m = v
  | _ => False

/-- the call is an `add_edge` -/
def Instr.IsEdge : Instr → Prop
  | .edge .. => True
  | _ => False

/-- the value the call assigns to an attribute of a node -/
def Instr.write (m : NodeId) (k : String) : Instr → Option Val
  | .node n _ at' => if m = n then Dict.find at' k else none
  | .attr n k' v => if m = n ∧ k = k' then some v else none
  | _ => none

/-- the last value assigned to an attribute of a node -/
def lastWrite (m : NodeId) (k : String) : List Instr → Option Val
  | [] => none
  | i :: s => (lastWrite m k s).or (i.write m k)

/-- the call gives the layer to the node -/
def Instr.GivesLayer (m : NodeId) (l : Atom) : Instr → Prop
  | .node n ls _ => m = n ∧ l ∈ ls.map Atom.str
  | _ => False

/-- the first call that mentions the node is an `add_edge` -/
def Implicit (m : NodeId) : List Instr → Prop
  | [] => False
  | i :: s => (i.Mentions m ∧ i.IsEdge) ∨ (¬ i.Mentions m ∧ Implicit m s)

/-- tokens appended by the calls -/
def Instr.newTokens : Instr → List NodeId
  | .token n => [n]
  | _ => []

/-- sentences appended by the calls -/
def Instr.newSentences : Instr → List NodeId
  | .sentence n => [n]
  | _ => []

/-- the arguments are fine: at least one layer, dicts have each key once; attributes are assigned to existing nodes only -/
def Instr.Ok (has : NodeId → Prop) : Instr → Prop
  | .node _ ls at' => ls ≠ [] ∧ (Dict.keys at').Nodup
  | .edge _ _ ls at' => ls ≠ [] ∧ (Dict.keys at').Nodup
  | .attr n k _ => has n ∧ k ≠ "layers"
  | _ => True

/-- all calls are fine, if the nodes `has` exist at the beginning -/
def ScriptOk (has : NodeId → Prop) : List Instr → Prop
  | [] => True
  | i :: s => i.Ok has ∧ ScriptOk (fun m => has m ∨ i.Mentions m) s

/-- the call is an `add_edge` from `u` to `v` -/
def Instr.isEdge (u v : NodeId) : Instr → Bool
  | .edge u' v' _ _ => decide (u = u' ∧ v = v')
  | _ => false

/-- number of edges from `u` to `v` -/
def edgeCount (g : DG) (u v : NodeId) : Nat := ((g.kd? u v).getD []).length

/-- there is an edge from `u` to `v` with the attributes `a` -/
def EdgeWith (g : DG) (u v : NodeId) (a : Attrs) : Prop := ∃ k, g.edgeAttrs u v k = some a

/-- the attributes of an edge are exactly the given ones and its layers are exactly the given ones -/
def MatchesArgs (a : Attrs) (ls : List String) (at' : Attrs) : Prop :=
  (∀ k, k ≠ "layers" → Dict.find a k = Dict.find at' k) ∧ ∀ l, AttrsLayer a l ↔ l ∈ ls.map Atom.str

end DG
end Dg
