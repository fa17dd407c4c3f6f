/-
Anaphoricity files, src/discoursegraphs/readwrite/anaphoricity.py.  A file is its text: decoding and encoding (UTF-8) are not modelled.
-/
import Verif.Model.Chains
import Verif.Model.Select
import Verif.Model.Conll
import Verif.Model.Tree

namespace Dg

/-- white space as recognised by `str.split()` of Python 2 (byte strings) -/
def isAsciiSpace (c : Char) : Bool := (9 ≤ c.toNat && c.toNat ≤ 13) || c.toNat == 32

/-- `s.split()` for a given kind of white space: the maximal pieces without white space; `cur` is the piece read so far (reversed) -/
def splitByAux (p : Char → Bool) : List Char → List Char → List (List Char)
  | cur, [] => if cur = [] then [] else [cur.reverse]
  | cur, c :: r => if p c then (if cur = [] then splitByAux p [] r else cur.reverse :: splitByAux p [] r) else splitByAux p (c :: cur) r

/-- `s.split()` for a given kind of white space -/
def splitBy (p : Char → Bool) (s : List Char) : List (List Char) := splitByAux p [] s

/-- `readlines()`: lines including their line break; `cur` is the line read so far (reversed) -/
def readLinesAux : List Char → List Char → List (List Char)
  | cur, [] => if cur = [] then [] else [cur.reverse]
  | cur, c :: r => if c = '\n' then (c :: cur).reverse :: readLinesAux [] r else readLinesAux (c :: cur) r

/-- `readlines()` -/
def readLines (s : List Char) : List (List Char) := readLinesAux [] s

/-- anaphoricity.py:26-27, the part `(?P<token>([Dd]a|[Ee])s)` of the regular expression at the beginning of the text: what is matched and what follows -/
def anaphStem : List Char → Option (List Char × List Char)
  | c :: 'a' :: 's' :: r => if c = 'D' ∨ c = 'd' then some ([c, 'a', 's'], r) else none
  | c :: 's' :: r => if c = 'E' ∨ c = 'e' then some ([c, 's'], r) else none
  | _ => none

/-- anaphoricity.py:26-27: the regular expression at the beginning of the text: the groups token, annotation, uncertain (matched a question mark) -/
def anaphHere (s : List Char) : Option (List Char × Char × Bool) :=
  match anaphStem s with
  | some (t, '/' :: x :: r) => if x = 'a' ∨ x = 'n' ∨ x = 'p' ∨ x = 'r' then some (t, x, decide (r.head? = some '?')) else none
  | _ => none

/-- `ANNOTATED_ANAPHORA_REGEX.search(token)`, anaphoricity.py:121: the first match -/
def anaphSearch : List Char → Option (List Char × Char × Bool)
  | [] => none
  | c :: s =>
    match anaphHere (c :: s) with
    | some m => some m
    | none => anaphSearch s

/-- anaphoricity.py:29-32 ANNOTATION_TYPES -/
def annotationTypes : List (Char × String) := [('n', "nominal"), ('a', "abstract"), ('r', "relative"), ('p', "pleonastic")]

/-- `ANNOTATION_TYPES[annotation]` -/
def annotationType (x : Char) : Except PyErr String :=
  match Dict.find annotationTypes x with
  | some s => .ok s
  | none => .error .key

/-- `ANNOTATIONS[v]`, anaphoricity.py:34: the inverse of ANNOTATION_TYPES.  (Simplification: KeyError also for unhashable values.) -/
def annotationLetter : Val → Except PyErr Char
  | .atom (.str s) =>
    match Dict.find (annotationTypes.map (fun p => (p.2, p.1))) s with
    | some c => .ok c
    | none => .error .key
  | _ => .error .key

namespace DG

/-- a string as attribute value -/
def strVal (cs : List Char) : Val := .atom (.str (String.ofList cs))

/-- anaphoricity.py:121-141: the call of add_node for a token -/
def anaphTokenNode (g : DG) (token : List Char) (id : NodeId) : Except PyErr DG :=
  match anaphSearch token with
  | some (t, x, uncertain) => do
    let ty ← annotationType x
    let certainty := if uncertain then "0.5" else "1.0"
    g.addNode id (.set [.str g.ns, .str (qual g.ns "token"), .str (qual g.ns "annotated")])
      (.dict [(qual g.ns "annotation", .atom (.str ty)), (qual g.ns "certainty", .atom (.str certainty)), (qual g.ns "token", strVal t), ("label", strVal (t ++ '_' :: ty.toList))]) []
  | none => g.addNode id (.set [.str g.ns, .str (qual g.ns "token")]) (.dict [(qual g.ns "token", strVal token), ("label", strVal token)]) []

/-- anaphoricity.py:107-145 `__add_token_to_document` -/
def anaphAddToken (connected : Bool) (g : DG) (token : List Char) (id : NodeId) : Except PyErr DG := do
  let g1 ← g.anaphTokenNode token id
  if connected then g1.addEdge g1.root id (.set [.str g1.ns, .str (qual g1.ns "token")]) none .none []
  else return g1

/-- anaphoricity.py:103-105: the loop over the tokens, `i` = number of the next token -/
def anaphAddTokens (connected : Bool) : Nat → List (List Char) → DG → Except PyErr DG
  | _, [], g => .ok g
  | i, w :: ws, g => do
    let g1 ← g.anaphAddToken connected w (.int i)
    anaphAddTokens connected (i + 1) ws { g1 with tokens := g1.tokens ++ [.int i] }

/-- anaphoricity.py:91-95: the constructor of the base class is always called with namespace 'anaphoricity'; then name, namespace, root and tokens are assigned -/
def anaphStart (name ns : String) : DG := { init "" "anaphoricity" none with name := name, ns := ns, root := .str (ns ++ ":root_node"), tokens := [] }

/-- anaphoricity.py:54-105 `AnaphoraDocumentGraph` for a file with the given text (and the name, which is computed in line 92) -/
def anaphRead (name ns : String) (connected : Bool) (text : List Char) : Except PyErr DG := do
  let g := anaphStart name ns
  let g ← g.addNode g.root (.set [.str g.ns]) .none []
  anaphAddTokens connected 0 ((readLines text).flatMap (splitBy isAsciiSpace)) g

/-- anaphoricity.py:152: `docgraph.get_token(tok_id).lower() == anaphora`.  (Lower-casing of letters outside ASCII is not modelled; it does not matter for the comparison with 'das' and 'es'.) -/
def anaphIs (g : DG) (anaphora : List Char) (n : NodeId) : Except PyErr Bool := do
  let v ← g.getToken n
  match v with
  | .atom (.str s) => return decide (s.toList.map Char.toLower = anaphora)
  | _ => .error .attribute

/-- anaphoricity.py:151-152: the list comprehension -/
def anaphFilter (g : DG) (anaphora : List Char) : List NodeId → Except PyErr (List NodeId)
  | [] => .ok []
  | n :: ns => do
    let b ← g.anaphIs anaphora n
    let rest ← anaphFilter g anaphora ns
    return if b then n :: rest else rest

/-- anaphoricity.py:154-161: what is written for a token.  The certainty is not looked up: line 155 compares the name of the attribute with '1.0'.
(Simplification: token attributes that are no strings are reported as TypeError.) -/
def anaphPiece (g : DG) (annotated : List NodeId) (t : NodeId) : Except PyErr (List Char) := do
  let v ← g.getToken t
  let s ← fmtVal v
  if t ∈ annotated then
    let a ← g.getAttr t (qual g.ns "annotation")
    let c ← annotationLetter a
    return s ++ '/' :: c :: ((if qual g.ns "certainty" = "1.0" then [] else ['?']) ++ [' '])
  else return s ++ [' ']

/-- anaphoricity.py:148-162 `gen_anaphoricity_str` -/
def genAnaphoricity (g : DG) (anaphora : List Char) : Except PyErr (List Char) :=
  if anaphora ≠ ['d', 'a', 's'] ∧ anaphora ≠ ['e', 's'] then .error .assertion
  else do
    let sel := g.selectNodesByLayer (.one (qual g.ns "annotated"))
    let ids ← g.anaphFilter anaphora sel.1
    let ids ← afterGen sel.2 ids
    let ps ← mapE (g.anaphPiece ids) g.tokens
    return ps.flatten

end DG
end Dg
