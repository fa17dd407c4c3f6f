/-
Converter for the output of the RST parser of Heilman and Sagae (src/discoursegraphs/readwrite/rst/heilman_sagae_2015.py).
Not modelled: reading the JSON file and `ParentedTree.fromstring` (the model starts from the nltk tree and the list of EDU tokens); `lower` and `capitalize` change ASCII
letters only.
-/
import Verif.Model.Rst

namespace Dg

/-- `c.lower()` for ASCII -/
def lowerChar (c : Char) : Char := if 'A'.toNat ≤ c.toNat ∧ c.toNat ≤ 'Z'.toNat then Char.ofNat (c.toNat + 32) else c

/-- `c.upper()` for ASCII -/
def upperChar (c : Char) : Char := if 'a'.toNat ≤ c.toNat ∧ c.toNat ≤ 'z'.toNat then Char.ofNat (c.toNat - 32) else c

/-- `s.capitalize()` -/
def capitalize : List Char → List Char
  | [] => []
  | c :: cs => upperChar c :: cs.map lowerChar

/-- readwrite/rst/heilman_sagae_2015.py:34-42 `SubtreeType` -/
inductive HsType
  | root
  | nucleus
  | satellite
  | text
  | leaf
  deriving DecidableEq, Repr

/-- readwrite/rst/heilman_sagae_2015.py:210-223 `get_tree_type` -/
def hsTreeType : PTree → Except PyErr HsType
  | .leaf _ => .ok .leaf
  | .none => .ok .leaf
  | .node label _ =>
    let ty := ((splitChars ':' (label.map lowerChar)).head?).getD []
    if ty = ['r', 'o', 'o', 't'] then .ok .root
    else if ty = ['n', 'u', 'c', 'l', 'e', 'u', 's'] then .ok .nucleus
    else if ty = ['s', 'a', 't', 'e', 'l', 'l', 'i', 't', 'e'] then .ok .satellite
    else if ty = ['t', 'e', 'x', 't'] then .ok .text
    else if ty = ['l', 'e', 'a', 'f'] then .ok .leaf
    else .error .assertion

/-- readwrite/rst/heilman_sagae_2015.py:243-251 `get_child_types`: here the list of the children's types; `child_types[ty]` are the indices at which the list has `ty` -/
def hsChildTypes : List PTree → Except PyErr (List HsType)
  | [] => .ok []
  | k :: ks => do
    let ty ← hsTreeType k
    let tys ← hsChildTypes ks
    return ty :: tys

/-- readwrite/rst/heilman_sagae_2015.py:45-52 `NucType` -/
inductive HsNucType
  | nucsat
  | multinuc
  | multisat
  | edu
  deriving DecidableEq, Repr

/-- readwrite/rst/heilman_sagae_2015.py:254-275 `get_nuclearity_type` -/
def hsNuclearityType (tys : List HsType) : Except PyErr HsNucType :=
  if .text ∈ tys ∧ tys.all (fun ty => ty = .text) then .ok .edu
  else if .nucleus ∉ tys then .error .assertion
  else if .satellite ∉ tys then
    if tys.count .nucleus > 1 then .ok .multinuc else .error .assertion
  else if tys.count .nucleus ≠ 1 then .error .assertion
  else if tys.count .satellite = 1 then .ok .nucsat
  else if tys.count .satellite > 1 then .ok .multisat
  else .error .assertion

/-- readwrite/rst/heilman_sagae_2015.py:26 and 162-168 `get_capitalized_relname` of the child: no match gives None, which has no `group` -/
def hsRelname : Option PTree → Except PyErr (List Char)
  | .none => .error .index
  | some (.node label _) =>
    match (if ['n', 'u', 'c', 'l', 'e', 'u', 's', ':'].isPrefixOf label then dotStarEnd (label.drop 8)
      else if ['s', 'a', 't', 'e', 'l', 'l', 'i', 't', 'e', ':'].isPrefixOf label then dotStarEnd (label.drop 10) else .none) with
    | some relname => .ok (capitalize relname)
    | .none => .error .attribute
  | some _ => .error .attribute

/-- the element of a list of results, an IndexError if there is none -/
def resultAt (rs : List (Except PyErr PTree)) (i : Nat) : Except PyErr PTree := (rs[i]?).getD (.error .index)

/-- readwrite/rst/heilman_sagae_2015.py:108: the list comprehension wraps every transformed child; the first exception ends it -/
def wrapNuclei : List (Except PyErr PTree) → Except PyErr (List PTree)
  | [] => .ok []
  | r :: rs => do
    let t ← r
    let ts ← wrapNuclei rs
    return .node ['N'] [t] :: ts

/-- readwrite/rst/heilman_sagae_2015.py:131-133: `hs2015_tree[0][0]` -/
def firstGrandchild : List PTree → Except PyErr PTree
  | .node _ (t :: _) :: _ => .ok t
  | .node _ [] :: _ => .error .index
  | [] => .error .index
  | _ => .error .attribute

mutual
/-- readwrite/rst/heilman_sagae_2015.py:71-156 `transform` and `get_nucsat_subtree`.  `hsTransformAll kids` are the results `transform` has on the children; only the ones
that the code asks for are looked at. In the branch for several satellites, line 119 (`first_sat_id in ...`) reads a name that is never assigned: NameError. -/
def hsTransform : PTree → Except PyErr PTree
  | .leaf s => .ok (.leaf s)
  | .none => .ok .none
  | .node label kids => do
    let treeType ← hsTreeType (.node label [])
    if treeType = .root ∨ treeType = .nucleus ∨ treeType = .satellite then
      let tys ← hsChildTypes kids
      match ← hsNuclearityType tys with
      | .nucsat =>
        let nucId := tys.idxOf .nucleus
        let satId := tys.idxOf .satellite
        let relname ← hsRelname kids[satId]?
        if nucId < satId then
          let n ← resultAt (hsTransformAll kids) nucId
          let s ← resultAt (hsTransformAll kids) satId
          return .node relname [.node ['N'] [n], .node ['S'] [s]]
        else
          let s ← resultAt (hsTransformAll kids) satId
          let n ← resultAt (hsTransformAll kids) nucId
          return .node relname [.node ['S'] [s], .node ['N'] [n]]
      | .multinuc =>
        let ts ← wrapNuclei (hsTransformAll kids)
        let relname ← hsRelname kids[0]?
        return .node relname ts
      | .multisat => .error .name
      | .edu => firstGrandchild kids
    else if treeType = .text then return .none
    else .error .assertion
/-- the results of `transform` on the children -/
def hsTransformAll : List PTree → List (Except PyErr PTree)
  | [] => []
  | k :: ks => hsTransform k :: hsTransformAll ks
end

/-- `xs[i]` of a Python list: negative indices count from the end -/
def pyGet {α : Type} (xs : List α) (i : Int) : Except PyErr α :=
  match (if 0 ≤ i then xs[i.toNat]? else if 0 ≤ i + xs.length then xs[(i + xs.length).toNat]? else .none) with
  | some x => .ok x
  | .none => .error .index

mutual
/-- readwrite/rst/heilman_sagae_2015.py:303-322 `_add_edus_to_tree` -/
def hsAddEdus (edus : List (List (List Char))) : PTree → Except PyErr PTree
  | .leaf s => do
    let i ← pyIntE s
    let toks ← pyGet edus i
    return .leaf (joinChars [' '] toks)
  | .none => .error .type
  | .node label kids => do
    let kids' ← hsAddEdusAll edus kids
    return .node label kids'
/-- the loop over the children, lines 316-322 -/
def hsAddEdusAll (edus : List (List (List Char))) : List PTree → Except PyErr (List PTree)
  | [] => .ok []
  | k :: ks => do
    let k' ← hsAddEdus edus k
    let ks' ← hsAddEdusAll edus ks
    return k' :: ks'
end

/-- readwrite/rst/heilman_sagae_2015.py:58-65, 192-201, 158-159: from the EDU tokens and the parsed tree to the final tree -/
def readHs2015 (edus : List (List (List Char))) (tree : PTree) : Except PyErr PTree := do
  let t ← hsAddEdus edus tree
  hsTransform t

end Dg
