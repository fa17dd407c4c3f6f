/-
Model of get_pointing_chains (src/discoursegraphs/discoursegraph.py:1298-1365).
-/
import Verif.Model.Select

namespace Dg

/-- `rel_dict`: source ↦ set of targets.  Simplification: Python 2 iterates the plain dict and the sets in an arbitrary order, the model in
insertion order; the theorems do not depend on the order. -/
abbrev RelDict := Dict NodeId (List NodeId)

namespace DG

/-- `rel_dict[src_id].add(target_id)` on a `defaultdict(set)`, discoursegraph.py:1344-1346 -/
def relAdd (d : RelDict) (u v : NodeId) : RelDict := Dict.put d u (setAdd ((Dict.find d u).getD []) v)

/-- the loop discoursegraph.py:1345-1346 -/
def buildRel (es : List (NodeId × NodeId)) : RelDict := es.foldl (fun d e => relAdd d e.1 e.2) []

/-- loop over the targets in __walk_chain, discoursegraph.py:1318-1323; `rec` is the recursive call -/
def walkTargets (rel : RelDict) (rec : NodeId → Except PyErr (List (List NodeId))) (src : NodeId) : List NodeId → Except PyErr (List (List NodeId))
  | [] => .ok []
  | t :: ts =>
    if Dict.has rel t then do
      let tails ← rec t
      let rest ← walkTargets rel rec src ts
      .ok (tails.map (fun tail => src :: tail) ++ rest)
    else do
      let rest ← walkTargets rel rec src ts
      .ok ([src, t] :: rest)

/-- `__walk_chain(rel_dict, src_id)`, discoursegraph.py:1298-1324; `fuel` = remaining recursion depth -/
def walkChain (rel : RelDict) : Nat → NodeId → Except PyErr (List (List NodeId))
  | 0, _ => .error .recursion
  | fuel + 1, src => walkTargets rel (walkChain rel fuel) src ((Dict.find rel src).getD [])

/-- `[f(x) for x in xs]` for a function that may raise -/
def mapE {α β : Type} (f : α → Except PyErr β) : List α → Except PyErr (List β)
  | [] => .ok []
  | x :: xs => do
    let y ← f x
    let ys ← mapE f xs
    .ok (y :: ys)

/-- `src_id_chains[0][0]` -/
def firstId (chains : List (List NodeId)) : Except PyErr NodeId :=
  match chains with
  | (x :: _) :: _ => .ok x
  | _ => .error .index

/-- the loop over all chain lists, discoursegraph.py:1353-1364; `before` are the lists already visited (`all_chains[:i]`) -/
def uniqueChains (before : List (List (List NodeId))) : List (List (List NodeId)) → Except PyErr (List (List NodeId))
  | [] => .ok []
  | cs :: rest => do
    let src ← firstId cs
    let others := before ++ rest
    let tail ← uniqueChains (before ++ [cs]) rest
    if others.any (fun cl => cl.any (fun c => decide (src ∈ c))) then .ok tail else .ok (cs ++ tail)

/-- `get_pointing_chains(docgraph, layer)`, discoursegraph.py:1327-1365 -/
def getPointingChains (fuel : Nat) (g : DG) (layer : Option String) : Except PyErr (List (List NodeId)) :=
  match g.selectEdgesBy layer (some pointingRelation) with
  | (_, some e) => .error e
  | (es, none) => do
    let rel := buildRel (es.map (fun e => (e.1, e.2.1)))
    let all ← mapE (walkChain rel fuel) (Dict.keys rel)
    uniqueChains [] all

end DG
end Dg
