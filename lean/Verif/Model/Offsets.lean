/-
Model of token access, offsets, spans and text of src/discoursegraphs/discoursegraph.py
(lines 98-181, 643-684, 941-1045).
-/
import Verif.Model.Select
import Verif.Model.Text

namespace Dg

/-- an item given to `' '.join`: TypeError unless it is a string -/
def asString : Val → Except PyErr String
  | .atom (.str s) => .ok s
  | _ => .error .type

namespace DG

/-- `get_tokens()`, discoursegraph.py:662-684 (both values of `token_strings_only`: the strings are the second components) -/
def getTokens (g : DG) : Gen (NodeId × Val) :=
  Gen.collect (fun t => match g.getToken t with
    | .ok v => .ok (some (t, v))
    | .error e => .error e) g.tokens

/-- `istoken`, discoursegraph.py:1016-1030 -/
def istoken (g : DG) (n : NodeId) (ns : Option String) : Except PyErr Bool :=
  match Dict.find g.nodes n with
  | none => .error .key
  | some a => .ok (Dict.has a (qual (ns.getD g.ns) "token"))

/-- the `try` block of get_offsets for a given token ID, discoursegraph.py:144-150 -/
def tryOffsets (g : DG) (offsetNs : String) (t : NodeId) : Except PyErr (Val × Val) := do
  let b ← g.istoken t none
  if b then
    let onset ← g.getAttr t (qual offsetNs "onset")
    let offset ← g.getAttr t (qual offsetNs "offset")
    .ok (onset, offset)
  else .error .assertion

/-- `get_offsets(token_node_id, offset_ns)`, discoursegraph.py:115-157, for a token ID that is not None.  On KeyError the offsets are added and the
method calls itself again: `fuel` is the remaining recursion depth. -/
def getOffsets (offsetNs : String) (t : NodeId) : Nat → DG → DG × Except PyErr (Val × Val)
  | 0, g => (g, .error .recursion)
  | fuel + 1, g =>
    match g.tryOffsets offsetNs t with
    | .ok r => (g, .ok r)
    | .error .key =>
      match g.addOffsets (some offsetNs) with
      | (g', some e) => (g', .error e)
      | (g', none) => getOffsets offsetNs t fuel g'
    | .error e => (g, .error e)

/-- what one step of `_get_all_offsets` yields for a token -/
def offsetItem (g : DG) (offsetNs : String) (t : NodeId) : Except PyErr (NodeId × Val × Val) := do
  let _ ← g.getToken t
  let onset ← g.getAttr t (qual offsetNs "onset")
  let offset ← g.getAttr t (qual offsetNs "offset")
  .ok (t, onset, offset)

/-- `get_offsets()` without a token ID = `_get_all_offsets`, discoursegraph.py:152, 159-181.  The generator is returned before its body runs, so a
KeyError during iteration is not caught by get_offsets.  (The graph is assumed not to change during the iteration.) -/
def getAllOffsets (g : DG) (offsetNs : String) : Gen (NodeId × Val × Val) :=
  Gen.collect (fun t => match g.offsetItem offsetNs t with
    | .ok v => .ok (some v)
    | .error e => .error e) g.tokens

/-- `edge_attribs['edge_type'] != EdgeTypes.pointing_relation` -/
def nonPointing (a : Attrs) : Except PyErr Bool :=
  match Dict.find a "edge_type" with
  | none => .error .key
  | some v => .ok (decide (v ≠ .atom (.str pointingRelation)))

/-- loop over the outgoing edges in get_span, discoursegraph.py:982-988; `rec` is the recursive call -/
def spanLoop (rec : NodeId → Except PyErr (List NodeId)) : List (NodeId × NodeId × Key × Attrs) → Except PyErr (List NodeId)
  | [] => .ok []
  | (src, tgt, _, a) :: es =>
    if src = tgt then spanLoop rec es
    else do
      let b ← nonPointing a
      if b then
        let xs ← rec tgt
        let ys ← spanLoop rec es
        .ok (xs ++ ys)
      else spanLoop rec es

/-- `get_span(docgraph, node_id)`, discoursegraph.py:962-989 (`debug=True` only adds a warning); `fuel` = remaining recursion depth -/
def getSpan (g : DG) : Nat → NodeId → Except PyErr (List NodeId)
  | 0, _ => .error .recursion
  | fuel + 1, n =>
    match Dict.find g.nodes n with
    | none => .error .key
    | some a => do
      let own := if Dict.has a (qual g.ns "token") then [n] else []
      let rest ← spanLoop (getSpan g fuel) (g.outEdges n)
      .ok (naturalSorted (own ++ rest))

/-- numeric value of a stored offset.  Simplification: values that are not ints raise TypeError (Python 2 would compare them anyway). -/
def asInt : Val → Except PyErr Int
  | .atom (.int i) => .ok i
  | _ => .error .type

/-- `[docgraph.get_offsets(tok) for tok in toks]` -/
def offsetsList (fuel : Nat) : DG → List NodeId → DG × Except PyErr (List (Int × Int))
  | g, [] => (g, .ok [])
  | g, t :: ts =>
    match getOffsets g.ns t fuel g with
    | (g1, .error e) => (g1, .error e)
    | (g1, .ok (on, off)) =>
      match asInt on, asInt off with
      | .ok i, .ok j =>
        match offsetsList fuel g1 ts with
        | (g2, .ok xs) => (g2, .ok ((i, j) :: xs))
        | (g2, .error e) => (g2, .error e)
      | _, _ => (g1, .error .type)

/-- `min(...)` of a non-empty list -/
def minList (x : Int) (xs : List Int) : Int := xs.foldl min x
/-- `max(...)` of a non-empty list -/
def maxList (x : Int) (xs : List Int) : Int := xs.foldl max x

/-- `onsets, offsets = zip(*...)` and `(min(onsets), max(offsets))`; unpacking an empty list is a ValueError -/
def spanBounds : List (Int × Int) → Except PyErr (Int × Int)
  | [] => .error .value
  | (i, j) :: xs => .ok (minList i (xs.map Prod.fst), maxList j (xs.map Prod.snd))

/-- `get_span_offsets`, discoursegraph.py:941-959 -/
def getSpanOffsets (fuel : Nat) (g : DG) (n : NodeId) : DG × Except PyErr (Int × Int) :=
  match g.getSpan fuel n with
  | .error e => (g, .error e)
  | .ok span =>
    match offsetsList fuel g span with
    | (g', .error e) => (g', .error e)
    | (g', .ok xs) => (g', spanBounds xs)

/-- `set(chain.from_iterable(xrange(on, off+1) ...))`: is `c` in it? -/
def coversChar (xs : List (Int × Int)) (c : Int) : Bool := xs.any (fun p => decide (p.1 ≤ c ∧ c ≤ p.2))

/-- `xrange(a, b+1)` -/
def intRange (a b : Int) : List Int := (List.range (b + 1 - a).toNat).map (fun (i : Nat) => a + i)

/-- `is_continuous`, discoursegraph.py:1033-1045 -/
def isContinuous (fuel : Nat) (g : DG) (n : NodeId) : DG × Except PyErr Bool :=
  match getSpanOffsets fuel g n with
  | (g1, .error e) => (g1, .error e)
  | (g1, .ok (first, last)) =>
    match g1.getSpan fuel n with
    | .error e => (g1, .error e)
    | .ok span =>
      match offsetsList fuel g1 span with
      | (g2, .error e) => (g2, .error e)
      | (g2, .ok xs) => (g2, .ok ((intRange first last).all (coversChar xs)))

/-- the token strings of the given nodes, as consumed by `' '.join` -/
def tokenStrings (g : DG) : List NodeId → Except PyErr (List String)
  | [] => .ok []
  | t :: ts => do
    let v ← g.getToken t
    let s ← asString v
    let rest ← tokenStrings g ts
    .ok (s :: rest)

/-- `tokens2text`, discoursegraph.py:1007-1013 -/
def tokens2text (g : DG) (ts : List NodeId) : Except PyErr String := do
  let ss ← g.tokenStrings ts
  .ok (pyJoin " " ss)

/-- truthiness of a node ID -/
def _root_.Dg.NodeId.truthy : NodeId → Bool
  | .int i => i != 0
  | .str s => s != ""

/-- `get_text`, discoursegraph.py:992-1004: `if node_id` is false for None, 0 and '' -/
def getText (fuel : Nat) (g : DG) (n : Option NodeId) : Except PyErr String :=
  match n with
  | none => g.tokens2text g.tokens
  | some n =>
    if n.truthy then do
      let span ← g.getSpan fuel n
      g.tokens2text span
    else g.tokens2text g.tokens

end DG
end Dg
