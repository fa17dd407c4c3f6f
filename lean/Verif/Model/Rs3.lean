/-
The reader for the .rs3 format (src/discoursegraphs/readwrite/rst/rs3/rs3tree.py, common.py) from the parsed XML on.
Not modelled here: the XML parser (lxml), the options `word_wrap` and `debug` (word_wrap=0, debug=False), log messages, Python's limit on the recursion depth.
-/
import Verif.Model.Dis
import Verif.Model.Chains

namespace Dg

/-- `<segment>` with its text (None for an element without text) or `<group>` with its attribute `type` -/
inductive Rs3Kind
  | segment (text : Option (List Char))
  | group (type : Option (List Char))
  deriving DecidableEq, Repr

/-- a `<segment>` or `<group>` element of an .rs3 file -/
structure Rs3Xml where
  /-- attribute `id` -/
  id : List Char
  /-- attribute `parent` -/
  parent : Option (List Char)
  /-- attribute `relname` -/
  relname : Option (List Char)
  /-- tag and content -/
  kind : Rs3Kind
  deriving DecidableEq, Repr

/-- an .rs3 file: the `<rel>` elements (name, type) and the `<segment>`/`<group>` elements in document order -/
structure Rs3Doc where
  /-- `<rel name=… type=…/>` -/
  rels : List (List Char × Option (List Char))
  /-- the elements of the body -/
  elems : List Rs3Xml
  deriving DecidableEq, Repr

/-- the values of `reltype` -/
inductive RelType
  | rst
  | multinuc
  | span
  deriving DecidableEq, Repr

/-- the values of `nuclearity` -/
inductive Nuclearity
  | root
  | satellite
  | nucleus
  deriving DecidableEq, Repr

/-- The entry of an element in `elem_dict` (rs3tree.py:430-475). -/
structure Rs3Elem where
  /-- `elem['parent']` -/
  parent : Option (List Char)
  /-- `elem['relname']` -/
  relname : Option (List Char)
  /-- `elem.get('reltype')` -/
  reltype : Option RelType
  /-- `elem['nuclearity']` -/
  nuclearity : Nuclearity
  /-- `elem['element_type']` is 'segment': its `elem['text']`; it is 'group': its `elem['group_type']` -/
  kind : List Char ⊕ Option (List Char)
  deriving DecidableEq, Repr

/-- What `get_rs3_data` (rs3tree.py:421-482) returns, without `reltypes`. -/
structure Rs3Data where
  /-- `child_dict`: parent ID to the IDs of its children in document order -/
  children : Dict (Option (List Char)) (List (List Char))
  /-- `elem_dict` -/
  elems : Dict (List Char) Rs3Elem
  /-- `edus`: IDs of the segments in document order -/
  edus : List (List Char)
  deriving Repr

/-- rst/rs3/common.py:14-33 `extract_relationtypes` -/
def extractRelationtypes (rels : List (List Char × Option (List Char))) : Dict (List Char) (List Char) :=
  rels.foldl (fun d r => match r.2 with | some ty => Dict.put d r.1 ty | none => d) []

/-- rs3tree.py:485-487 `normalize_edu_string` (`strip` before `split` has no effect) -/
def normalizeEduString (s : List Char) : List Char := joinChars [' '] (splitWs s)

/-- rs3tree.py:441-460: reltype and nuclearity of an element -/
def relationOf (reltypes : Dict (List Char) (List Char)) : Option (List Char) → Except PyErr (Option RelType × Nuclearity)
  | none => .ok (none, .root)
  | some relname =>
    match Dict.find reltypes relname with
    | none => .ok (some .span, .nucleus)
    | some ty =>
      if ty = ['r', 's', 't'] then .ok (some .rst, .satellite)
      else if ty = ['m', 'u', 'l', 't', 'i', 'n', 'u', 'c'] then .ok (some .multinuc, .nucleus)
      else if ty = ['s', 'p', 'a', 'n'] then .ok (some .span, .nucleus)
      else .error .notImplemented

/-- rs3tree.py:434-475: the body of the loop over the elements.  If an ID occurs twice, the later element replaces the earlier one (in the code it overwrites its fields). -/
def readElem (reltypes : Dict (List Char) (List Char)) (d : Rs3Data) (x : Rs3Xml) : Except PyErr Rs3Data := do
  let (reltype, nuclearity) ← relationOf reltypes x.relname
  let children := Dict.put d.children x.parent ((Dict.find d.children x.parent).getD [] ++ [x.id])
  match x.kind with
  | .segment none => .error .attribute
  | .segment (some text) =>
    return { children := children,
             elems := Dict.put d.elems x.id ⟨x.parent, x.relname, reltype, nuclearity, .inl (normalizeEduString text)⟩,
             edus := d.edus ++ [x.id] }
  | .group type =>
    return { children := children,
             elems := Dict.put d.elems x.id ⟨x.parent, x.relname, reltype, nuclearity, .inr type⟩,
             edus := d.edus }

/-- rs3tree.py:421-482 `get_rs3_data` -/
def getRs3Data (doc : Rs3Doc) : Except PyErr Rs3Data :=
  doc.elems.foldlM (readElem (extractRelationtypes doc.rels)) ⟨[], [], []⟩

/-- A DGParentedTree (readwrite/tree.py:20-25): a string, or a label, a root_id and children.  No parent pointers. -/
inductive DTree
  | leaf (s : List Char)
  | node (label : List Char) (rootId : Option (List Char)) (kids : List DTree)

mutual
/-- the tree without the root IDs -/
def DTree.plain : DTree → PTree
  | .leaf s => .leaf s
  | .node label _ kids => .node label (DTree.plainAll kids)
/-- the trees without the root IDs -/
def DTree.plainAll : List DTree → List PTree
  | [] => []
  | k :: ks => DTree.plain k :: DTree.plainAll ks
end

mutual
/-- nltk's `tree.leaves()` -/
def DTree.leaves : DTree → List (List Char)
  | .leaf s => [s]
  | .node _ _ kids => DTree.leavesAll kids
/-- the leaves of a list of trees -/
def DTree.leavesAll : List DTree → List (List Char)
  | [] => []
  | k :: ks => DTree.leaves k ++ DTree.leavesAll ks
end

mutual
/-- nltk's `tree.height()`: a string counts 1 -/
def DTree.height : DTree → Nat
  | .leaf _ => 1
  | .node _ _ kids => 1 + DTree.heightAll kids
/-- the greatest height of the trees (0 if there is none) -/
def DTree.heightAll : List DTree → Nat
  | [] => 0
  | k :: ks => max (DTree.height k) (DTree.heightAll ks)
end

/-- `tree.root_id` (a string has none) -/
def DTree.rootId : DTree → Option (List Char)
  | .leaf _ => none
  | .node _ i _ => i

namespace Rs3Data
open DG (mapE)

/-- `self.child_dict[node_id]` -/
def kids (d : Rs3Data) (i : Option (List Char)) : List (List Char) := (Dict.find d.children i).getD []

/-- rs3tree.py:55-56 `edu_strings` -/
def eduStrings (d : Rs3Data) : List (List Char) :=
  d.edus.map (fun i => match Dict.find d.elems i with | some ⟨_, _, _, _, .inl s⟩ => s | _ => [])

/-- rs3tree.py:290-307: is this element a segment whose relname is replaced by that of its parent when `segment2tree` meets it? -/
def inheritsRelname (d : Rs3Data) (i : List Char) (e : Rs3Elem) : Bool :=
  e.kind.isLeft && !Dict.has d.children (some i) && decide (e.reltype = none ∨ e.reltype = some .span) && decide (e.nuclearity ≠ .root) &&
    decide (e.relname = some ['s', 'p', 'a', 'n'])

/-- rs3tree.py:108-109 `get_relname` together with the assignment at rs3tree.py:304-307.  The assignment happens when `segment2tree` is called for the segment and
`get_relname` is only asked for an element whose tree was built before or whose reltype is 'multinuc' (which excludes the assignment); the parent has a child, so its own
relname is never replaced.  The mutable dictionary is therefore represented by a function. -/
def relname (d : Rs3Data) : Option (List Char) → Option (List Char)
  | none => some []
  | some i =>
    match Dict.find d.elems i with
    | none => some []
    | some e =>
      if d.inheritsRelname i e then
        match e.parent.bind (Dict.find d.elems) with
        | some p => p.relname
        | none => e.relname
      else e.relname

/-- readwrite/tree.py:56-98 `t(label, trees, root_id=…)` where the label is a relation name that may be None -/
def mkRel (label : Option (List Char)) (rootId : Option (List Char)) (kids : List DTree) : Except PyErr DTree :=
  match label with
  | some l => .ok (.node l rootId kids)
  | none => .error .notImplemented

/-- rs3tree.py:103-105: number of steps from an element to None along the parents.  The loop does not terminate for elements that are their own ancestors or have an
ancestor that is not in the file: PyErr.recursion. -/
def heightFrom (d : Rs3Data) : Nat → Option (List Char) → Except PyErr Nat
  | _, none => .ok 0
  | 0, some _ => .error .recursion
  | fuel + 1, some i =>
    match Dict.find d.elems i with
    | none => .error .recursion
    | some e => do return (← heightFrom d fuel e.parent) + 1

/-- rs3tree.py:97-106 `node_height` -/
def nodeHeight (d : Rs3Data) : Option (List Char) → Except PyErr Nat
  | none => .error .assertion
  | some i => if Dict.has d.elems i then heightFrom d d.elems.length (some i) else .error .assertion

/-- `min(xs)` of a sequence of numbers -/
def minE : List Nat → Except PyErr Nat
  | [] => .error .value
  | x :: xs => .ok (xs.foldl min x)

/-- readwrite/tree.py:27-41 `get_position` of the element with this ID -/
def position (d : Rs3Data) : Nat → Option (List Char) → Except PyErr Nat
  | 0, _ => .error .recursion
  | fuel + 1, i =>
    match i with
    | some j => if j ∈ d.edus then .ok (d.edus.idxOf j) else do minE (← mapE (fun c => position d fuel (some c)) (d.kids i))
    | none => do minE (← mapE (fun c => position d fuel (some c)) (d.kids i))

/-- rs3tree.py:389-400 `sort_subtrees` -/
def sortSubtrees (d : Rs3Data) (ts : List DTree) : Except PyErr (List DTree) := do
  let hs ← mapE (fun t => do return (← d.nodeHeight t.rootId, t)) ts
  let desc := (pySorted (fun a b => decide (b.1 ≤ a.1)) hs).map Prod.snd
  let ps ← mapE (fun t => do return (← d.position (d.elems.length + 1) t.rootId, t)) desc
  return (pySorted (fun a b => decide (a.1 ≤ b.1)) ps).map Prod.snd

/-- rs3tree.py:402-405 `sorted_nucsat_tree` -/
def sortedNucsat (d : Rs3Data) (nuc sat : DTree) : Except PyErr DTree := do
  mkRel (d.relname sat.rootId) nuc.rootId (← d.sortSubtrees [nuc, sat])

/-- rs3tree.py:498-518 `n_wrap` -/
def nWrap (t : DTree) (rootId : Option (List Char)) : DTree :=
  match t with
  | .node label i kids => if label = ['N'] then t else if label = ['S'] then .node ['N'] i kids else .node ['N'] rootId [t]
  | .leaf _ => .node ['N'] rootId [t]

/-- rs3tree.py:521-541 `s_wrap` -/
def sWrap (t : DTree) (rootId : Option (List Char)) : DTree :=
  match t with
  | .node label i kids => if label = ['S'] then t else if label = ['N'] then .node ['S'] i kids else .node ['S'] rootId [t]
  | .leaf _ => .node ['S'] rootId [t]

/-- rs3tree.py:407-418 `elem_wrap` with a given root_id -/
def elemWrap (d : Rs3Data) (t : DTree) (i : List Char) : DTree :=
  match Dict.find d.elems i with
  | some e => if e.nuclearity = .nucleus then nWrap t (some i) else sWrap t (some i)
  | none => sWrap t (some i)

/-- rs3tree.py:385-387 `get_linear_position` -/
def linearPosition (d : Rs3Data) (t : DTree) : Except PyErr Nat :=
  match t.leaves with
  | [] => .error .index
  | s :: _ => if s ∈ d.eduStrings then .ok (d.eduStrings.idxOf s) else .error .value

/-- rs3tree.py:363-383 `convert_schema` -/
def convertSchema (d : Rs3Data) (nuc : DTree) (nucPos : Nat) : List (DTree × Nat) → Except PyErr DTree
  | [] => .ok nuc
  | (sat, pos) :: rest => do
    let ordered := if pos < nucPos then [sat, nuc] else [nuc, sat]
    match rest with
    | [] => mkRel (d.relname sat.rootId) nuc.rootId ordered
    | _ :: _ =>
      let rel ← mkRel (d.relname sat.rootId) none ordered
      convertSchema d (.node ['N'] nuc.rootId [rel]) nucPos rest

/-- rs3tree.py:324-361 `order_schema` -/
def orderSchema (d : Rs3Data) (nuc : DTree) (sats : List DTree) : Except PyErr DTree := do
  let nucPos ← d.linearPosition nuc
  let tuples ← mapE (fun s => do return (s, ← d.linearPosition s)) sats
  let tuples := pySorted (fun a b => decide (a.2 ≤ b.2)) tuples
  if tuples.any (fun s => s.2 = nucPos) then .error .assertion
  else
    let prec := (tuples.filter (fun s => decide (s.2 < nucPos))).reverse
    let succ := tuples.filter (fun s => !decide (s.2 < nucPos))
    if DTree.heightAll (prec.map Prod.fst) ≥ DTree.heightAll (succ.map Prod.fst) then d.convertSchema nuc nucPos (prec ++ succ)
    else d.convertSchema nuc nucPos (succ ++ prec)

/-- the nuclearity of an element -/
def nuclearityOf (d : Rs3Data) (i : List Char) : Option Nuclearity := (Dict.find d.elems i).map Rs3Elem.nuclearity

/-- the reltype of an element -/
def reltypeOf (d : Rs3Data) (i : List Char) : Option RelType := (Dict.find d.elems i).bind Rs3Elem.reltype

/-- rs3tree.py:281-322 `segment2tree`; `dt` is the recursive call -/
def segment2tree (d : Rs3Data) (dt : List Char → Except PyErr DTree) (i : List Char) (e : Rs3Elem) (text : List Char) : Except PyErr DTree :=
  let tree : DTree := .node (if e.reltype = some .rst then ['S'] else ['N']) (some i) [.leaf text]
  if Dict.has d.children (some i) then
    match d.kids (some i) with
    | [sat] => do d.sortedNucsat tree (← dt sat)
    | kids =>
      if kids.all (fun c => d.nuclearityOf c = some .satellite) then do d.orderSchema tree (← mapE dt kids)
      else .error .assertion
  else .ok tree

/-- rs3tree.py:170-182: the subtree below a group that is a satellite or part of a multinuclear relation -/
def partSubtree (d : Rs3Data) (dt : List Char → Except PyErr DTree) (i : List Char) : Except PyErr DTree :=
  match d.kids (some i) with
  | [c] => dt c
  | kids => do
    let subtrees ← mapE (fun c => do return d.elemWrap (← dt c) c) kids
    let sorted ← d.sortSubtrees subtrees
    match kids with
    | [] => .error .index
    | c :: _ => mkRel (d.relname (some c)) (some i) sorted

/-- rs3tree.py:164-183: `group2tree` for a group that is a satellite or part of a multinuclear relation -/
def group2treePart (d : Rs3Data) (dt : List Char → Except PyErr DTree) (i : List Char) (reltype : RelType) : Except PyErr DTree := do
  let subtree ← d.partSubtree dt i
  return if reltype = .rst then sWrap subtree (some i) else nWrap subtree (some i)

/-- rs3tree.py:190-225: `group2tree` for a nucleus or root of type multinuc -/
def group2treeMultinuc (d : Rs3Data) (dt : List Char → Except PyErr DTree) (i : List Char) : Except PyErr DTree := do
  let nucs := (d.kids (some i)).filter (fun c => decide (d.reltypeOf c = some .multinuc))
  match nucs with
  | [] => .error .index
  | c :: _ =>
    let sorted ← d.sortSubtrees (← mapE dt nucs)
    let subtree ← mkRel (d.relname (some c)) (some i) sorted
    let others := (d.kids (some i)).filter (fun c => !decide (c ∈ nucs))
    if others = [] then return subtree
    else if others.all (fun c => d.nuclearityOf c = some .satellite) then
      d.orderSchema (.node ['N'] (some i) [subtree]) (← mapE dt others)
    else .error .assertion

/-- rs3tree.py:227-279: `group2tree` for a nucleus or root of another type -/
def group2treeSpan (d : Rs3Data) (dt : List Char → Except PyErr DTree) (i : List Char) : Except PyErr DTree :=
  match d.kids (some i) with
  | [] => .error .value
  | [c] => dt c
  | [c1, c2] =>
    match d.nuclearityOf c1, d.nuclearityOf c2 with
    | some .satellite, some .nucleus => do
      let sat ← dt c1
      let nuc ← dt c2
      d.sortedNucsat (nWrap nuc (some i)) sat
    | some .nucleus, some .satellite => do
      let sat ← dt c2
      let nuc ← dt c1
      d.sortedNucsat (nWrap nuc (some i)) sat
    | _, _ => do
      let t1 ← dt c1
      let t2 ← dt c2
      d.sortedNucsat t1 t2
  | kids =>
    match kids.filter (fun c => d.nuclearityOf c = some .nucleus) with
    | [n] => do
      let nuc ← dt n
      let sats ← mapE dt (kids.filter (fun c => d.nuclearityOf c = some .satellite))
      d.orderSchema (.node ['N'] (some i) [nuc]) sats
    | _ => .error .assertion

/-- rs3tree.py:111-134, 164-279 `dt` of an element and `group2tree`.  `fuel` bounds the depth of the recursion.  (For an ID that is not in the file, the code returns an
empty list; `child_dict` only contains IDs of elements, so this is never reached.) -/
def dt (d : Rs3Data) : Nat → List Char → Except PyErr DTree
  | 0, _ => .error .recursion
  | fuel + 1, i =>
    match Dict.find d.elems i with
    | none => .error .attribute
    | some e =>
      match e.kind with
      | .inl text => d.segment2tree (dt d fuel) i e text
      | .inr type =>
        match e.reltype with
        | some .rst => d.group2treePart (dt d fuel) i .rst
        | some .multinuc => d.group2treePart (dt d fuel) i .multinuc
        | _ => if type = some ['m', 'u', 'l', 't', 'i', 'n', 'u', 'c'] then d.group2treeMultinuc (dt d fuel) i else d.group2treeSpan (dt d fuel) i

/-- rs3tree.py:136-162 `root2tree`.  (The root_id of the virtual root is not modelled: `none`.) -/
def root2tree (d : Rs3Data) (fuel : Nat) : Except PyErr DTree :=
  match d.kids none with
  | [] => .ok (.node [] none [])
  | [r] => d.dt fuel r
  | roots => do
    let subtrees ← mapE (fun r => do return nWrap (← d.dt fuel r) (some r)) roots
    return .node ['v', 'i', 'r', 't', 'u', 'a', 'l', '-', 'r', 'o', 'o', 't'] none (← d.sortSubtrees subtrees)

end Rs3Data

/-- rs3tree.py:49-57 `RSTTree(rs3_file).tree`.  The depth of the recursion is bounded by the number of elements unless the elements form a cycle. -/
def readRs3 (doc : Rs3Doc) : Except PyErr DTree := do
  let d ← getRs3Data doc
  d.root2tree (d.elems.length + 1)

end Dg
