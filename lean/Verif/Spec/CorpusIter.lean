/-
What a user expects of a corpus which is read document by document.
-/
import Verif.Model.CorpusIter

namespace Dg

mutual
/-- an element and all elements inside of it, in the order of the file -/
def XElem.all : XElem → List XElem
  | .mk t i a cs => .mk t i a cs :: XElem.allL cs
def XElem.allL : List XElem → List XElem
  | [] => []
  | c :: cs => c.all ++ XElem.allL cs
end

/-- the elements with this tag, in the order of the file -/
def documentsOf (tag : String) (file : XElem) : List XElem := file.all.filter (fun e => e.tag = tag)

/-- no document contains a document -/
def Unnested (tag : String) (file : XElem) : Prop := ∀ d ∈ documentsOf tag file, ∀ e ∈ XElem.allL d.children, e.tag ≠ tag

/-- what a user gets for document number `i` in opening number `o` of the file: the document graph (or the exception of its conversion), with `debug` the element -/
def documentOut {R : Type} (K : CorpusKind R) (debug : Bool) (o i : Nat) (d : XElem) : CorpusOut R :=
  if debug then .item (.element o i)
  else match K.convert d with
    | .ok r => .item (.graph r)
    | .error e => .error e

/-- the end of an iteration -/
def CorpusOut.isStop {R : Type} : CorpusOut R → Bool
  | .error .stopIteration => true
  | _ => false

/-- an exception (the end of an iteration or another one) -/
def CorpusOut.isError {R : Type} : CorpusOut R → Bool
  | .error _ => true
  | _ => false

/-- A book about a history: how many times `_reset_corpus_iterator()` was called, in which opening each iterator was made, and what was given from each opening (`next()` gives from the current one, an iterator from the one in which it was made). -/
structure CorpusBook (R : Type) where
  opening : Nat := 0
  iters : List Nat := []
  given : Nat → List (CorpusOut R) := fun _ => []

/-- something was given from an opening; the end of an iteration is nothing -/
def CorpusBook.add {R : Type} (b : CorpusBook R) (o : Nat) (y : CorpusOut R) : CorpusBook R :=
  if y.isStop then b else { b with given := fun p => if p = o then b.given p ++ [y] else b.given p }

def CorpusBook.note {R : Type} (b : CorpusBook R) (x : CorpusCall × CorpusOut R) : CorpusBook R :=
  match x.1 with
  | .reset => { b with opening := b.opening + 1 }
  | .len => b
  | .iter => { b with iters := b.iters ++ [b.opening] }
  | .next => b.add b.opening x.2
  | .advance i =>
    match b.iters[i]? with
    | none => b
    | some o => b.add o x.2

def bookOf {R : Type} (calls : List CorpusCall) (outs : List (CorpusOut R)) : CorpusBook R := (calls.zip outs).foldl CorpusBook.note {}

/-- iterator `i` has raised an exception (StopIteration or another one) -/
def IterEnded {R : Type} (calls : List CorpusCall) (outs : List (CorpusOut R)) (i : Nat) : Prop :=
  ∃ (n : Nat) (y : CorpusOut R), calls[n]? = some (.advance i) ∧ outs[n]? = some y ∧ y.isError = true

/-- the iterator which gave this element was asked for another one afterwards -/
def PassedBy {R : Type} (calls : List CorpusCall) (outs : List (CorpusOut R)) (o i : Nat) : Prop :=
  ∃ j n m : Nat, n < m ∧ calls[n]? = some (.advance j) ∧ outs[n]? = some (.item (.element o i)) ∧ calls[m]? = some (.advance j)

end Dg
