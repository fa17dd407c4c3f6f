/-
Access to the Potsdam Commentary Corpus: src/discoursegraphs/corpora.py.
Not modelled: the file system (the lists of files are given), the readers of the layers (parameters, modelled elsewhere), get_random_document (a random element of document_ids).
-/
import Verif.Model.Merge
import Verif.Model.Text

namespace Dg

/-- merging graphs into the first one, one after the other, corpora.py:104-106; for each of them the chances of the renaming.  The resulting graph and the exception, if any. -/
def DG.mergeAll : DG → List (DG × DG.Sched) → DG × Option PyErr
  | g, [] => (g, none)
  | g, (o, s) :: rest =>
    match g.mergeGraphs o s with
    | (g', none) => DG.mergeAll g' rest
    | (g', some e) => (g', some e)

/-- all ends of a text -/
def suffixes : List Char → List (List Char)
  | [] => [[]]
  | c :: r => (c :: r) :: suffixes r

/-- Python 2.7 `fnmatch.fnmatch(name, pat)` on POSIX (pattern first), with `*` and `?`.  Simplification: sets of characters in brackets are not modelled, `[` stands for itself (which is right if no `]` follows). -/
def fnmatch : List Char → List Char → Bool
  | [], s => s.isEmpty
  | c :: p, s =>
    if c = '*' then (suffixes s).any (fun t => fnmatch p t)
    else s.head?.any (fun x => c = '?' || c = x) && fnmatch p s.tail

/-- the annotation layers of the corpus, keys of `PCC.layers`, corpora.py:66-73 -/
inductive PccLayer where
  | connectors
  | coreference
  | rst
  | syntax
deriving DecidableEq, Repr

/-- the lists of files of a corpus, corpora.py:58-64 -/
structure Pcc where
  layers : PccLayer → List (List Char)
  tokenization : List (List Char)

/-- `'*{}.*'.format(doc_id)`, corpora.py:98, 139 -/
def docPattern (docId : List Char) : List Char := '*' :: (docId ++ ['.', '*'])

/-- the files of a document, corpora.py:94-99: layers in the order of the keys of the dict -/
def Pcc.docFiles (c : Pcc) (order : List PccLayer) (docId : List Char) : List (PccLayer × List Char) :=
  order.flatMap (fun l => ((c.layers l).filter (fun f => fnmatch (docPattern docId) f)).map (fun f => (l, f)))

/-- reads all files, in order -/
def readAll (read : PccLayer → List Char → Except PyErr DG) : List (PccLayer × List Char) → Except PyErr (List DG)
  | [] => .ok []
  | (l, f) :: rest => do
    let g ← read l f
    let gs ← readAll read rest
    .ok (g :: gs)

/-- `PCC.get_document(doc_id)`, corpora.py:89-107, for the layers in the order `order` of the keys of the dict and the chances `scheds` of the merges -/
def Pcc.getDocument (c : Pcc) (order : List PccLayer) (read : PccLayer → List Char → Except PyErr DG) (scheds : Nat → DG.Sched) (docId : List Char) : Except PyErr DG := do
  let gs ← readAll read (c.docFiles order docId)
  match gs with
  | [] => .error .type
  | g :: others =>
    match g.mergeAll (others.zipIdx.map (fun p => (p.1, scheds p.2))) with
    | (g', none) => .ok g'
    | (_, some e) => .error e

/-- `PCC.get_files_by_document_id(document_id)` for a string, corpora.py:132-139 (`_all_files`: corpora.py:75-76) -/
def Pcc.filesByDocumentId (c : Pcc) (order : List PccLayer) (docId : List Char) : List (List Char) :=
  (order.flatMap c.layers).filter (fun f => fnmatch (docPattern docId) f)

/-- `os.path.basename` -/
def basename (s : List Char) : List Char := (s.reverse.takeWhile (fun c => c ≠ '/')).reverse

/-- `(maz-\d+)\.` at the beginning of the text: the group -/
def docIdAt (s : List Char) : Option (List Char) :=
  if ['m', 'a', 'z', '-'].isPrefixOf s then
    let d := (s.drop 4).takeWhile Char.isDigit
    if d ≠ [] ∧ ((s.drop 4).dropWhile Char.isDigit).head? = some '.' then some (['m', 'a', 'z', '-'] ++ d) else none
  else none

/-- the group of `re.match('^.*(maz-\d+)\..*', s)`, corpora.py:30: `.*` takes as much as possible (but no line breaks) -/
def docIdOf : List Char → Option (List Char)
  | [] => none
  | c :: r => ((if c = '\n' then none else docIdOf r).orElse (fun _ => docIdAt (c :: r)))

/-- the order of strings -/
def charsLe : List Char → List Char → Bool
  | [], _ => true
  | _ :: _, [] => false
  | a :: as, b :: bs => if a = b then charsLe as bs else a.toNat < b.toNat

/-- the IDs of the files: AttributeError if a name does not match -/
def idsOf : List (List Char) → Except PyErr (List (List Char))
  | [] => .ok []
  | f :: rest =>
    match docIdOf (basename f) with
    | none => .error .attribute
    | some d => do
      let ds ← idsOf rest
      .ok (d :: ds)

/-- `PCC.document_ids`, corpora.py:78-83.  It takes the files of the corpus `pcc` of the module, not those of the object itself. -/
def Pcc.documentIds (_self pcc : Pcc) : Except PyErr (List (List Char)) := do
  let ds ← idsOf pcc.tokenization
  .ok (pySorted charsLe ds)

/-- `len(corpus)`, corpora.py:85-87 -/
def Pcc.len (self pcc : Pcc) : Except PyErr Nat := do
  let ds ← self.documentIds pcc
  .ok ds.length

/-- `corpus[i]` for an integer, corpora.py:109-114: negative numbers count from the end, IndexError -/
def Pcc.getIndex (self pcc : Pcc) (order : List PccLayer) (read : PccLayer → List Char → Except PyErr DG) (scheds : Nat → DG.Sched) (i : Int) : Except PyErr DG := do
  let ds ← self.documentIds pcc
  let j := if i < 0 then i + ds.length else i
  if j < 0 then .error .index
  else match ds[j.toNat]? with
    | none => .error .index
    | some d => self.getDocument order read scheds d

end Dg
