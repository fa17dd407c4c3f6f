/-
The corpora which are read document by document: `ExportXMLCorpus` (src/discoursegraphs/readwrite/exportxml.py:66-164) and `URMLCorpus` (src/discoursegraphs/readwrite/rst/urml.py:22-127), and the counter of XML elements (src/discoursegraphs/readwrite/generic.py:17-39).
The file is an XML tree.  Not modelled: files which are not well-formed, the reading of the file in pieces, `path`.  Simplifications: the content of an element which contains an emptied one is shown as it is in the file, and the file does not change between two openings.
-/
import Verif.Model.ExportXml
import Verif.Model.Urml
import Verif.Model.Corpora

namespace Dg

mutual
/-- the elements with this tag, as `etree.iterparse(file, events=('end',), tag=tag)` reports them: an element when its end tag has been read -/
def XElem.ends (tag : String) : XElem → List XElem
  | .mk t i a cs => XElem.endsL tag cs ++ (if t = tag then [.mk t i a cs] else [])
def XElem.endsL (tag : String) : List XElem → List XElem
  | [] => []
  | c :: cs => XElem.ends tag c ++ XElem.endsL tag cs
end

mutual
/-- generic.py:17-39 `XMLElementCountTarget`: the counter after the parser has seen the element; `start` adds one for the tag, `end` and `data` do nothing -/
def XElem.count (tag : String) (n : Nat) : XElem → Nat
  | .mk t _ _ cs => XElem.countL tag (if t = tag then n + 1 else n) cs
def XElem.countL (tag : String) (n : Nat) : List XElem → Nat
  | [] => n
  | c :: cs => XElem.countL tag (XElem.count tag n c) cs
end

/-- what the two classes differ in: the tag of the documents, the lengths which are written in the code, and the document graph of an element -/
structure CorpusKind (R : Type) where
  tag : String
  fixed : String → Option Nat
  convert : XElem → Except PyErr R

/-- exportxml.py:112-113 (the tag), 118-119 (the fixed length), 157 (the document graph, KeyError if the element has no ID) -/
def exportXmlKind : CorpusKind DG where
  tag := "text"
  fixed := fun name => if name = "tuebadz-8.0-mit-NE+Anaphern+Diskurs.exml.xml" then some 3258 else none
  convert := fun e =>
    match e.id with
    | none => .error .key
    | some i => DG.expRead (some i) "exportxml" false {} e

/-- urml.py:76-77 (the tag), 79-82 (no fixed length), 119-120 (the document graph); `view` is what the reader sees of a `<document>` element, see Model/Urml -/
def urmlKind (view : XElem → UrmlDoc) (tokenize precedence : Bool) : CorpusKind (DG × List NodeId) where
  tag := "document"
  fixed := fun _ => none
  convert := fun e => DG.urmlRead none "urml" tokenize precedence (view e)

/-- what an iteration gives: a document graph or, with `debug`, the element with this number of an opening of the file -/
inductive CorpusItem (R : Type)
  | graph (r : R)
  | element (opening index : Nat)

/-- an `etree.iterparse` object: the number of the elements it has given, and the elements which have been emptied -/
structure CorpusCtx where
  pos : Nat := 0
  cleared : List Nat := []

/-- a generator of `text_iter` (`document_iter`): its opening of the file, the element it has given last (it stands at the `yield`), and whether it has ended -/
structure CorpusIter where
  ctx : Nat
  pending : Option Nat := none
  ended : Bool := false

/-- the state of a corpus and of what has been taken from it: exportxml.py:93-100, urml.py:57-66 -/
structure XCorpus where
  name : String
  file : XElem
  debug : Bool
  count : Option Nat
  contexts : List CorpusCtx
  current : Nat
  iters : List CorpusIter

/-- `_reset_corpus_iterator()`, exportxml.py:102-113, urml.py:68-77: the file is opened again; the old openings go on living in their iterators -/
def XCorpus.reset (c : XCorpus) : XCorpus := { c with contexts := c.contexts ++ [{}], current := c.contexts.length }

/-- `ExportXMLCorpus(file, name, debug)`, exportxml.py:77-100, and `URMLCorpus(file, name, debug, …)`, urml.py:33-66 -/
def XCorpus.new (path : String) (file : XElem) (name : Option String) (debug : Bool) : XCorpus :=
  XCorpus.reset
    { name := match name with
        | some n => if n = "" then String.ofList (basename path.toList) else n
        | none => String.ofList (basename path.toList)
      file := file, debug := debug, count := none, contexts := [], current := 0, iters := [] }

/-- the calls of a user -/
inductive CorpusCall
  /-- `corpus._reset_corpus_iterator()` -/
  | reset
  /-- `len(corpus)` -/
  | len
  /-- `iter(corpus)`; the iterators are numbered -/
  | iter
  /-- `it.next()` for the iterator with this number (nothing if there is no such iterator) -/
  | advance (i : Nat)
  /-- `corpus.next()` -/
  | next
deriving DecidableEq, Repr

/-- what a call gives -/
inductive CorpusOut (R : Type)
  | none
  | number (n : Nat)
  | iterator (i : Nat)
  | item (x : CorpusItem R)
  | error (e : PyErr)

namespace XCorpus

variable {R : Type}

/-- `elem.clear()`, exportxml.py:161, urml.py:124 (the siblings before it, which are removed from the tree, are documents given before or no documents) -/
def clear (c : XCorpus) (opening index : Nat) : XCorpus :=
  { c with contexts := c.contexts.modify opening (fun x => { x with cleared := index :: x.cleared }) }

/-- the generator goes on after its `yield`: the element given last is emptied, exportxml.py:160-163, urml.py:123-126 -/
def resume (c : XCorpus) (it : CorpusIter) : XCorpus :=
  match it.pending with
  | some i => c.clear it.ctx i
  | none => c

/-- an element as the user sees it: an emptied element has neither attributes nor children -/
def look (K : CorpusKind R) (c : XCorpus) (opening index : Nat) : Option XElem :=
  match c.contexts[opening]?, (c.file.ends K.tag)[index]? with
  | some x, some e => some (if index ∈ x.cleared then .mk e.tag none [] [] else e)
  | _, _ => none

/-- one step of the generator, exportxml.py:155-164, urml.py:117-127: the element given last is emptied, then the next one is taken from the opening of the file -/
def step (K : CorpusKind R) (c : XCorpus) (it : CorpusIter) : XCorpus × CorpusIter × CorpusOut R :=
  if it.ended then (c, it, .error .stopIteration)
  else
    let c1 := c.resume it
    match c1.contexts[it.ctx]? with
    | none => (c1, { it with ended := true, pending := none }, .error .stopIteration)
    | some x =>
      match (c1.file.ends K.tag)[x.pos]? with
      | none => (c1, { it with ended := true, pending := none }, .error .stopIteration)
      | some e =>
        let c2 := { c1 with contexts := c1.contexts.modify it.ctx (fun y => { y with pos := y.pos + 1 }) }
        if c1.debug then (c2, { it with pending := some x.pos }, .item (.element it.ctx x.pos))
        else match K.convert e with
          | .ok r => (c2, { it with pending := some x.pos }, .item (.graph r))
          | .error err => (c2, { it with ended := true, pending := none }, .error err)

/-- `__len__`, exportxml.py:115-134, urml.py:79-95: the number is stored -/
def len (K : CorpusKind R) (c : XCorpus) : XCorpus × Nat :=
  match c.count with
  | some n => (c, n)
  | none =>
    match K.fixed c.name with
    | some n => (c, n)
    | none =>
      let n := c.file.count K.tag 0
      ({ c with count := some n }, n)

/-- one call.  `iter`: exportxml.py:136-137, urml.py:97-98.  `next`: exportxml.py:139-142, urml.py:100-104, an iterator of its own which is forgotten at once (so it does not empty the element). -/
def call (K : CorpusKind R) (c : XCorpus) : CorpusCall → XCorpus × CorpusOut R
  | .reset => (c.reset, .none)
  | .len => let r := c.len K; (r.1, .number r.2)
  | .iter => ({ c with iters := c.iters ++ [{ ctx := c.current }] }, .iterator c.iters.length)
  | .advance i =>
    match c.iters[i]? with
    | none => (c, .none)
    | some it =>
      let r := c.step K it
      ({ r.1 with iters := r.1.iters.set i r.2.1 }, r.2.2)
  | .next =>
    let r := c.step K { ctx := c.current }
    (r.1, r.2.2)

/-- a history of calls: the corpus afterwards and what the calls gave -/
def run (K : CorpusKind R) (c : XCorpus) : List CorpusCall → XCorpus × List (CorpusOut R)
  | [] => (c, [])
  | x :: xs =>
    let r := c.call K x
    let s := run K r.1 xs
    (s.1, r.2 :: s.2)

end XCorpus
end Dg
