/-
Model of src/discoursegraphs/statistics.py.
-/
import Verif.Model.Graph
import Verif.Model.Text
import Mathlib.Data.List.Dedup

namespace Dg

/-- `counter[x] += 1` -/
def countOne {K : Type} [DecidableEq K] (c : Dict K Nat) (x : K) : Dict K Nat := Dict.put c x ((Dict.find c x).getD 0 + 1)

/-- `for x in xs: counter[x] += 1` -/
def countAll {K : Type} [DecidableEq K] (c : Dict K Nat) (xs : List K) : Dict K Nat := xs.foldl countOne c

/-- iterating over `attrs['layers']`: the elements of a set (each once) or of a list; KeyError if there are no layers.  Simplification: a
string would be iterated over by character, other objects raise TypeError; both do not occur in document graphs (C01) and are reported as TypeError. -/
def iterLayers (a : Attrs) : Except PyErr (List Atom) :=
  match Dict.find a "layers" with
  | none => .error .key
  | some (.set xs) => .ok xs.dedup
  | some (.list xs) => .ok xs
  | some _ => .error .type

/-- layer and attribute counts, statistics.py:31-37 and 48-56 -/
structure Counts where
  layers : Dict Atom Nat
  attribs : Dict String Nat
  deriving DecidableEq, Repr

/-- loop body statistics.py:34-37 and 53-56 -/
def countAttrs (c : Counts) (a : Attrs) : Except PyErr Counts := do
  let ls ← iterLayers a
  .ok ⟨countAll c.layers ls, countAll c.attribs (Dict.keys a)⟩

/-- the loops over nodes/edges -/
def countLoop : Counts → List Attrs → Except PyErr Counts
  | c, [] => .ok c
  | c, a :: as => do
    let c' ← countAttrs c a
    countLoop c' as

/-- the counters of node_statistics, statistics.py:28-37 -/
def nodeStatistics (g : DG) : Except PyErr Counts := countLoop ⟨[], []⟩ (Dict.vals g.nodes)

/-- the layer and attribute counters of edge_statistics, statistics.py:45-56 -/
def edgeStatistics (g : DG) : Except PyErr Counts := countLoop ⟨[], []⟩ (g.edges.map (fun e => e.2.2.2))

/-- `source_counts`, statistics.py:57 -/
def sourceCounts (g : DG) : Dict NodeId Nat := countAll [] (g.edges.map (fun e => e.1))

/-- `target_counts`, statistics.py:58 -/
def targetCounts (g : DG) : Dict NodeId Nat := countAll [] (g.edges.map (fun e => e.2.1))

/-- insertion into a list sorted by descending count, behind equal counts -/
def insertDesc {K : Type} (x : K × Nat) : List (K × Nat) → List (K × Nat)
  | [] => [x]
  | y :: ys => if y.2 < x.2 then x :: y :: ys else y :: insertDesc x ys

/-- `sorted(counter.items(), key=itemgetter(1), reverse=True)`, statistics.py:18: the (key, count) pairs in the order in which they are printed; `reverse=True`
keeps the order of equal elements.  `items` are the counter's items in the order of the dict. -/
def sortedCounter {K : Type} (items : List (K × Nat)) : List (K × Nat) := items.foldl (fun acc x => insertDesc x acc) []

/-- `counter.most_common(number)`, statistics.py:24 (collections.Counter: the `number` largest counts, equal counts in dict order) -/
def mostCommon {K : Type} (items : List (K × Nat)) (number : Nat) : List (K × Nat) := (sortedCounter items).take number

end Dg
