/-
Model of the queries for phrases: get_potential_markables (mmax2.py:447-482) and DiscourseDocumentGraph.get_phrases (discoursegraph.py:183-190).
-/
import Verif.Model.Tiger
import Verif.Model.Select

namespace Dg
namespace DG

/-- mmax2.py:472-476, one edge into an NP: the parent, if it is a PP -/
def ppParent (g : DG) (e : NodeId × NodeId × Key × Attrs) : Except PyErr (List NodeId) :=
  match Dict.find g.nodes e.1 with
  | none => .error .key
  | some a => .ok (if Dict.find a "tiger:cat" = some (.atom (.str "PP")) then [e.1] else [])

/-- mmax2.py:469-481, the body of the loop: what one node adds to the list.  (`docgraph.in_edges` lists the edges in an unspecified order.) -/
def markableStep (g : DG) (p : NodeId × Attrs) : Except PyErr (List NodeId) := do
  let cat ← featAt p.2 "tiger:cat"
  if cat = .atom (.str "NP") then do
    let ps ← mapE g.ppParent (g.inEdges p.1)
    return (if ps.flatten.isEmpty then [p.1] else ps.flatten)
  else if cat = .atom (.str "PP") then return [p.1]
  else return []

/-- mmax2.py:447-482 `get_potential_markables` -/
def getPotentialMarkables (g : DG) : Except PyErr (List NodeId) := do
  let sel := g.selectNodesByLayerData (.one "tiger:syntax")
  let xs ← mapE g.markableStep sel.1
  match sel.2 with
  | some e => .error e
  | none => return xs.flatten

/-- discoursegraph.py:189-190: is the node yielded? -/
def phraseStep (g : DG) (catKey catVal : String) (n : NodeId) : Except PyErr (Option NodeId) := do
  let v ← g.getAttr n (g.ns ++ ":" ++ catKey)
  return (if v = .atom (.str catVal) then some n else none)

/-- `if not ns: ns = self.ns`, discoursegraph.py:185-186 -/
def phraseNs (g : DG) : Option String → String
  | none => g.ns
  | some n => if n = "" then g.ns else n

/-- discoursegraph.py:183-190 `get_phrases` (a generator): `ns` selects the layer, but the attribute is always looked up in the namespace of the graph. -/
def getPhrases (g : DG) (ns : Option String) (layer catKey catVal : String) : Gen NodeId :=
  let sel := g.selectNodesByLayer (.one (g.phraseNs ns ++ ":" ++ layer))
  let r := Gen.collect (g.phraseStep catKey catVal) sel.1
  match r.2 with
  | some _ => r
  | none => (r.1, sel.2)

end DG
end Dg
