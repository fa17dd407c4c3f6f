/-
Model of src/discoursegraphs/util.py: token positions, ID mangling, prefixing, multiple replacement.
-/
import Verif.Model.Text
import Verif.Model.Graph

namespace Dg

/-- the loop of TokenMapper.__init__, util.py:38-40, from position `i` on -/
def tokenMapperLoop : Nat → List NodeId → Dict NodeId Nat × Dict Nat NodeId → Dict NodeId Nat × Dict Nat NodeId
  | _, [], m => m
  | i, t :: ts, m => tokenMapperLoop (i + 1) ts (Dict.put m.1 t i, Dict.put m.2 i t)

/-- `TokenMapper(docgraph)`, util.py:22-40: (id2index, index2id) -/
def tokenMapper (g : DG) : Dict NodeId Nat × Dict Nat NodeId := tokenMapperLoop 0 g.tokens ([], [])

/-- `[token_map[token_id] for token_id in ids]`, util.py:64 -/
def tokenIndices (m : Dict NodeId Nat) : List NodeId → Except PyErr (List Nat)
  | [] => .ok []
  | t :: ts => do
    let i ← (match Dict.find m t with | none => .error .key | some i => .ok i)
    let is ← tokenIndices m ts
    .ok (i :: is)

/-- `get_segment_token_offsets(segment_token_list, token_map)`, util.py:43-67: `min`/`max` of an empty list raise ValueError -/
def getSegmentTokenOffsets (ts : List NodeId) (m : Dict NodeId Nat) : Except PyErr (Nat × Nat) := do
  let is ← tokenIndices m ts
  match is with
  | [] => .error .value
  | i :: is => .ok (is.foldl min i, is.foldl max i)

/-- `FORBIDDEN_XPOINTER_RE.sub('_', s)`, util.py:19, 164 -/
def xpointerChar (c : Char) : Char := if c = ':' then '_' else c

/-- `ensure_xpointer_compatibility(node_id)`, util.py:144-166, for node IDs (other types raise AssertionError) -/
def ensureXpointer : NodeId → NodeId
  | .int i => .int i
  | .str s => .str (String.ofList (s.toList.map xpointerChar))

/-- `{prefix + k: v for (k, v) in dict_like.items()}`, add_prefix, util.py:169-192, for a dict (or something `dict()` accepts) -/
def addPrefix {V : Type} (d : Dict String V) (pre : String) : Dict String V :=
  d.foldl (fun acc kv => Dict.put acc (pre ++ kv.1) kv.2) []

/-- the alternative chosen by `re.compile('|'.join(map(re.escape, adict)))` at a position: the first key, in the dict's order, that is a
prefix of the rest of the text -/
def firstKey (d : List (List Char × List Char)) (cs : List Char) : Option (List Char × List Char) := d.find? (fun kv => kv.1.isPrefixOf cs)

/-- `rx.sub(one_xlat, text)`, util.py:393-396, for keys that are not empty; `skip` characters belong to the last match -/
def xlat (d : List (List Char × List Char)) : Nat → List Char → List Char
  | _, [] => []
  | skip + 1, _ :: cs => xlat d skip cs
  | 0, c :: cs =>
    match firstKey d (c :: cs) with
    | none => c :: xlat d 0 cs
    | some kv => kv.2 ++ xlat d (kv.1.length - 1) cs

/-- `create_multiple_replace_func(adict)(text)`, util.py:378-397.  With an empty dict the pattern `''` matches and `adict['']` raises KeyError. -/
def multipleReplace (d : Dict String String) (text : String) : Except PyErr String :=
  if d.isEmpty then .error .key
  else .ok (String.ofList (xlat (d.map (fun kv => (kv.1.toList, kv.2.toList))) 0 text.toList))

end Dg
