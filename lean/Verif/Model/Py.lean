/-
Python values, dictionaries and exceptions as used by the model.
No definition here models project code; they model the Python 2 runtime objects
that the project code manipulates.
-/
namespace Dg

/-- Exceptions raised by the modelled code (only the class is kept, not the message). -/
inductive PyErr
  | assertion      -- AssertionError
  | key            -- KeyError
  | value          -- ValueError
  | attribute      -- AttributeError
  | type           -- TypeError
  | index          -- IndexError
  | stopIteration  -- StopIteration
  | name           -- NameError / UnboundLocalError
  | syntax         -- SyntaxError (from `eval`)
  | recursion      -- RuntimeError: maximum recursion depth exceeded
  | unfeasible     -- networkx.NetworkXUnfeasible
  | notImplemented -- NotImplementedError
  | networkx       -- networkx.NetworkXError
  | io             -- IOError
  deriving DecidableEq, Repr

/-- Node identifiers (and multi-edge keys): the project uses ints and strings. -/
inductive NodeId
  | int (i : Int)
  | str (s : String)
  deriving DecidableEq, Repr

/-- Keys distinguishing parallel edges. -/
abbrev Key := NodeId

/-- Scalar attribute values.  `other` stands for any further object, e.g. a float, by its repr. -/
inductive Atom
  | none
  | int (i : Int)
  | str (s : String)
  | other (repr : String)
  deriving DecidableEq, Repr

/-- Attribute values: scalars, sets, lists and flat dictionaries of scalars. -/
inductive Val
  | atom (a : Atom)
  | set (xs : List Atom)
  | list (xs : List Atom)
  | dict (kvs : List (String × Atom))
  deriving DecidableEq, Repr

/-- Python truthiness of a value. -/
def Val.truthy : Val → Bool
  | .atom .none => false
  | .atom (.int i) => i != 0
  | .atom (.str s) => s != ""
  | .atom (.other _) => true
  | .set xs => !xs.isEmpty
  | .list xs => !xs.isEmpty
  | .dict kvs => !kvs.isEmpty

/-- `isinstance(x, str)` for a scalar. -/
def Atom.isStr : Atom → Bool
  | .str _ => true
  | _ => false

/-- A Python dict: association list in insertion order; keys are unique in every dict
built with the functions below (`Dict.Nodup` invariants are proved, not assumed). -/
abbrev Dict (K : Type) (V : Type) := List (K × V)

namespace Dict
variable {K V : Type} [DecidableEq K]

/-- `d.get(k)` -/
def find : Dict K V → K → Option V
  | [], _ => none
  | (k', v) :: d, k => if k' = k then some v else find d k

/-- `d[k] = v`: overwrite in place or append. -/
def put : Dict K V → K → V → Dict K V
  | [], k, v => [(k, v)]
  | (k', v') :: d, k, v => if k' = k then (k', v) :: d else (k', v') :: put d k v

/-- `d.update(e)` -/
def upd (d e : Dict K V) : Dict K V := e.foldl (fun d kv => put d kv.1 kv.2) d

/-- `del d[k]` (no effect if absent). -/
def del (d : Dict K V) (k : K) : Dict K V := d.filter (fun kv => decide (kv.1 ≠ k))

/-- `k in d` -/
def has (d : Dict K V) (k : K) : Bool := (find d k).isSome

omit [DecidableEq K] in
/-- `d.keys()` -/
def keys (d : Dict K V) : List K := d.map Prod.fst

omit [DecidableEq K] in
/-- `d.values()` -/
def vals (d : Dict K V) : List V := d.map Prod.snd

end Dict

/-- Attribute dictionaries of nodes and edges. -/
abbrev Attrs := Dict String Val

/-- `s1.union(s2)` on sets represented as lists. -/
def setUnion {α : Type} [DecidableEq α] (s t : List α) : List α :=
  s ++ (t.filter (fun x => decide (x ∉ s)))

/-- `s.add(x)` -/
def setAdd {α : Type} [DecidableEq α] (s : List α) (x : α) : List α :=
  if x ∈ s then s else s ++ [x]

/-- An `attr_dict` argument: absent, a dict, or some non-dict object. -/
inductive AttrArg
  | none
  | dict (d : Attrs)
  | bad
  deriving DecidableEq, Repr

end Dg
