/-
Python string functions used by the project, on characters, and `natural_sort_key` (src/discoursegraphs/util.py).
-/
import Verif.Model.Py

namespace Dg

/-- `sep.join(xs)` on character lists -/
def joinChars (sep : List Char) : List (List Char) → List Char
  | [] => []
  | [x] => x
  | x :: y :: xs => x ++ sep ++ joinChars sep (y :: xs)

/-- `sep.join(xs)` -/
def pyJoin (sep : String) (xs : List String) : String := String.ofList (joinChars sep.toList (xs.map String.toList))

/-- `s[i:j]` for `0 ≤ i` and `0 ≤ j` -/
def pySlice (s : String) (i j : Nat) : String := String.ofList ((s.toList.drop i).take (j - i))

/-- `s.split(c)` for a single character separator (keeps empty pieces) on character lists -/
def splitChars (c : Char) : List Char → List (List Char)
  | [] => [[]]
  | x :: xs =>
    if x = c then [] :: splitChars c xs
    else match splitChars c xs with
      | [] => [[x]]
      | p :: ps => (x :: p) :: ps

/-- `s.split(c)` -/
def pySplit (c : Char) (s : String) : List String := (splitChars c s.toList).map String.ofList

/-- the ASCII digit of a number below ten -/
def digitChar (n : Nat) : Char := Char.ofNat (48 + n)

/-- `[0-9]` -/
def isDigitChar (c : Char) : Bool := decide (48 ≤ c.toNat ∧ c.toNat ≤ 57)

/-- `str(n)` of a natural number -/
def decimal (n : Nat) : List Char :=
  if n < 10 then [digitChar n] else decimal (n / 10) ++ [digitChar (n % 10)]

/-- `str(i)` of an int -/
def decimalInt : Int → List Char
  | .ofNat n => decimal n
  | .negSucc n => '-' :: decimal (n + 1)

/-- `int(s)` for a string of digits -/
def parseDec (cs : List Char) : Nat := cs.foldl (fun acc c => 10 * acc + (c.toNat - 48)) 0

/-- `str(x)` of a node ID; `str(u'...')` of non-ASCII unicode IDs (UnicodeEncodeError in Python 2) is not modelled -/
def NodeId.chars : NodeId → List Char
  | .int i => decimalInt i
  | .str s => s.toList

/-- One element of a natural sort key. -/
inductive KeyPart
  | int (n : Nat)
  | str (cs : List Char)
  deriving DecidableEq, Repr

/-- `[int(text) if text.isdigit() else text for text in re.split('([0-9]+)', s)]`, util.py:18 and 90-91: `re.split` with a capturing
group alternates between text and digit runs, starting and ending with (possibly empty) text.  `fuel` = number of characters. -/
def splitDigits : Nat → List Char → List KeyPart
  | 0, cs => [.str cs]
  | fuel + 1, cs =>
    let p := cs.takeWhile (fun c => !isDigitChar c)
    match cs.dropWhile (fun c => !isDigitChar c) with
    | [] => [.str p]
    | d :: rest =>
      let ds := (d :: rest).takeWhile isDigitChar
      .str p :: .int (parseDec ds) :: splitDigits fuel ((d :: rest).dropWhile isDigitChar)

/-- `natural_sort_key(s)`, util.py:70-91 -/
def naturalSortKey (n : NodeId) : List KeyPart := splitDigits n.chars.length n.chars

/-- lexicographic comparison of lists (`<=` of Python lists and strings) from a comparison of elements -/
def lexLe {α : Type} [DecidableEq α] (le : α → α → Bool) : List α → List α → Bool
  | [], _ => true
  | _ :: _, [] => false
  | a :: as, b :: bs => if a = b then lexLe le as bs else le a b

/-- `<=` of key elements in Python 2: ints before strings, ints by value, strings lexicographically by code point -/
def KeyPart.le : KeyPart → KeyPart → Bool
  | .int a, .int b => decide (a ≤ b)
  | .int _, .str _ => true
  | .str _, .int _ => false
  | .str a, .str b => lexLe (fun (c d : Char) => decide (c.toNat ≤ d.toNat)) a b

/-- `natural_sort_key(a) <= natural_sort_key(b)` -/
def naturalLe (a b : NodeId) : Bool := lexLe KeyPart.le (naturalSortKey a) (naturalSortKey b)

/-- insertion of an element before the first element that is not smaller (used for the stable sort) -/
def insertSorted {α : Type} (le : α → α → Bool) (x : α) : List α → List α
  | [] => [x]
  | y :: ys => if le x y then x :: y :: ys else y :: insertSorted le x ys

/-- Python's stable `sorted(xs, key=...)`: elements with equal keys keep their order. -/
def pySorted {α : Type} (le : α → α → Bool) : List α → List α
  | [] => []
  | x :: xs => insertSorted le x (pySorted le xs)

/-- `sorted(ids, key=natural_sort_key)` -/
def naturalSorted (ids : List NodeId) : List NodeId := pySorted naturalLe ids

end Dg
