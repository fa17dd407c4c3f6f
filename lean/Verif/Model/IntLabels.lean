/-
Model of convert_node_labels_to_integers (relabel.py:152-207).
-/
import Verif.Model.Merge
import Verif.Model.Tiger

namespace Dg

/-- `a <= b` for node IDs in Python 2: ints before strings, ints by value, strings by code point (used by `nlist.sort()`, relabel.py:188) -/
def NodeId.pyLe : NodeId → NodeId → Bool
  | .int a, .int b => decide (a ≤ b)
  | .int _, .str _ => true
  | .str _, .int _ => false
  | .str a, .str b => lexLe (fun (c d : Char) => decide (c.toNat ≤ d.toNat)) a.toList b.toList

/-- `a <= b` for the tuples (degree, node), relabel.py:191-192: by degree first, then by node -/
def degreeLe (a b : Nat × NodeId) : Bool := if a.1 = b.1 then a.2.pyLe b.2 else decide (a.1 ≤ b.1)

/-- a node ID as the value of an attribute, relabel.py:206 -/
def NodeId.value : NodeId → Val
  | .int i => .atom (.int i)
  | .str s => .atom (.str s)

namespace DG

/-- the tuples `dv_pairs` after sorting, relabel.py:191-192, 195-196 -/
def degreePairs (g : DG) : List (Nat × NodeId) := pySorted degreeLe ((Dict.keys g.nodes).map (fun n => (g.degree n, n)))

/-- the nodes in the order in which they are numbered, relabel.py:184-200; NetworkXError for an unknown ordering.
`G.nodes()` is the order of a Python dict, here the order of the model's node dict. -/
def nodeOrdering (g : DG) (ordering : String) : Except PyErr (List NodeId) :=
  if ordering = "default" then .ok (Dict.keys g.nodes)
  else if ordering = "sorted" then .ok (pySorted NodeId.pyLe (Dict.keys g.nodes))
  else if ordering = "increasing degree" then .ok (g.degreePairs.map Prod.snd)
  else if ordering = "decreasing degree" then .ok (g.degreePairs.reverse.map Prod.snd)
  else .error .networkx

/-- `dict(zip(nlist, range(first_label, N)))`, relabel.py:183, 185, 189, 193, 198 -/
def intMapping (first : Int) : List NodeId → Dict NodeId NodeId
  | [] => []
  | n :: ns => (n, .int first) :: intMapping (first + 1) ns

/-- `nx.set_node_attributes(H, label_attribute, {new: old})`, relabel.py:204-206: KeyError if `H` lacks one of the nodes.  The loop over the dict is a loop
over the mapping in the model; the order does not matter for the attributes. -/
def setLabels (attr : String) (m : Dict NodeId NodeId) (h : DG) : Except PyErr DG :=
  m.foldlM (fun h p => h.setAttr p.2 attr p.1.value) h

/-- `convert_node_labels_to_integers(G, first_label, ordering, label_attribute)`, relabel.py:152-207.  `relabel_nodes` works on a deep copy (relabel.py:147-149), so an
exception leaves nothing behind.  `order` is the processing order of _relabel_inplace, see `RelabelOrder`. -/
def convertLabels (g : DG) (first : Int) (ordering : String) (attr : Option String) (order : Option (List NodeId)) : Except PyErr DG := do
  let l ← g.nodeOrdering ordering
  let m := intMapping first l
  match g.relabelInplace m order with
  | (_, some e) => .error e
  | (h, none) =>
    let h := { h with name := "(" ++ g.name ++ ")_with_int_labels" }
    match attr with
    | none => .ok h
    | some a => setLabels a m h

end DG
end Dg
