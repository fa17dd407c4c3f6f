/-
Model of convert_spanstring, src/discoursegraphs/readwrite/generic.py:158-210, on characters.
-/
import Verif.Model.Text

namespace Dg

/-- `c in ' \t\n\r\v\f'` -/
def isSpaceChar (c : Char) : Bool := c = ' ' || c = '\t' || c = '\n' || c = '\r' || c = '\x0b' || c = '\x0c'

/-- `s.strip()` -/
def pyStrip (cs : List Char) : List Char := ((cs.dropWhile isSpaceChar).reverse.dropWhile isSpaceChar).reverse

/-- `int(digits)` without sign; `none` stands for ValueError -/
def pyNat (cs : List Char) : Option Nat := if cs ≠ [] ∧ cs.all isDigitChar then some (parseDec cs) else none

/-- `int(s)` for a string: surrounding white space and a sign are allowed -/
def pyInt (cs : List Char) : Option Int :=
  match pyStrip cs with
  | '-' :: ds => (pyNat ds).map (fun n => -(n : Int))
  | '+' :: ds => (pyNat ds).map (fun n => (n : Int))
  | ds => (pyNat ds).map (fun n => (n : Int))

/-- add a character to the first piece -/
def pushHead (c : Char) : List (List Char) → List (List Char)
  | [] => [[c]]
  | p :: ps => (c :: p) :: ps

/-- `s.split('..')` -/
def splitDots : List Char → List (List Char)
  | [] => [[]]
  | [c] => [[c]]
  | a :: b :: cs => if a = '.' ∧ b = '.' then [] :: splitDots cs else pushHead a (splitDots (b :: cs))

/-- `prefix, id_str = s.split('_')`: ValueError unless there are exactly two pieces -/
def unpack2 (cs : List Char) : Except PyErr (List Char × List Char) :=
  match splitChars '_' cs with
  | [a, b] => .ok (a, b)
  | _ => .error .value

/-- `int(s)` or ValueError -/
def intOrError (cs : List Char) : Except PyErr Int :=
  match pyInt cs with
  | some i => .ok i
  | none => .error .value

/-- `range(a, b)` -/
def pyRange (a b : Int) : List Int := (List.range (b - a).toNat).map (fun (i : Nat) => a + (i : Int))

/-- `"{0}_{1}".format(prefix, token_id)`, generic.py:196 -/
def tokenName (pre : List Char) (i : Int) : List Char := pre ++ '_' :: decimalInt i

/-- loop body for one comma separated piece, generic.py:187-201 -/
def convertSpan (span : List Char) : Except PyErr (List (List Char)) :=
  match splitDots span with
  | [t] => .ok [t]
  | [start, stop] => do
    let (p, a) ← unpack2 start
    let (q, b) ← unpack2 stop
    if p = q then
      let i ← intOrError a
      let j ← intOrError b
      .ok ((pyRange i (j + 1)).map (tokenName p))
    else .error .assertion
  | _ => .error .value

/-- the loop over the comma separated pieces, generic.py:186-201 -/
def convertSpans : List (List Char) → Except PyErr (List (List Char))
  | [] => .ok []
  | s :: ss => do
    let ts ← convertSpan s
    let rest ← convertSpans ss
    .ok (ts ++ rest)

/-- the two assertions for each token, generic.py:205-209 -/
def checkToken (first : List Char) (t : List Char) : Bool :=
  match splitChars '_' t with
  | [p, _] => decide (p = first)
  | _ => false

/-- `convert_spanstring(span_string)`, generic.py:158-210, on characters.  (The pieces are converted before any token is checked; since all
of that happens before returning, only the class of the exception depends on it.) -/
def convertSpanChars (cs : List Char) : Except PyErr (List (List Char)) :=
  if cs = [] then .ok []
  else do
    let tokens ← convertSpans (splitChars ',' cs)
    match tokens with
    | [] => .error .index
    | t :: ts =>
      match splitChars '_' t with
      | [] => .error .index
      | first :: _ => if (t :: ts).all (checkToken first) then .ok (t :: ts) else .error .assertion

/-- `convert_spanstring(span_string)` -/
def convertSpanstring (s : String) : Except PyErr (List String) := (convertSpanChars s.toList).map (List.map String.ofList)

end Dg
