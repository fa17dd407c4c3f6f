/-
The CoNLL 2009/2010 reader, src/discoursegraphs/readwrite/conll.py:55-335, for precedence=False.  A file is its text: decoding is not modelled.
-/
import Verif.Model.Anaphoricity
import Verif.Model.Dis
import Verif.Model.Conll
import Verif.Model.Spanstring
import Verif.Model.Offsets

namespace Dg

/-- conll.py:63-65 -/
def conll2009Columns : List String :=
  ["word_id", "token", "lemma", "plemma", "pos", "ppos", "feat", "pfeat", "head", "phead", "deprel", "pdeprel", "fillpred", "pred"]

/-- conll.py:70-72 -/
def conll2010Columns : List String :=
  ["word_id", "token", "lemma", "plemma", "pos", "ppos", "feat", "pfeat", "head", "phead", "deprel", "pdeprel", "ne", "pne", "pred", "ppred", "coref"]

/-- conll.py:76-85.  The order in which Python iterates over this dict does not matter, as no value belongs to two categories. -/
def morphFeatures : List (String × List (List Char)) :=
  [("gender", [['M', 'a', 's', 'c'], ['F', 'e', 'm'], ['N', 'e', 'u', 't']]), ("person", [['1'], ['2'], ['3']]), ("number", [['S', 'g'], ['P', 'l']]),
   ("case", [['N', 'o', 'm'], ['G', 'e', 'n'], ['D', 'a', 't'], ['A', 'c', 'c']]), ("degree", [['P', 'o', 's'], ['C', 'o', 'm', 'p'], ['S', 'u', 'p']]),
   ("tense", [['P', 'r', 'e', 's'], ['P', 'a', 's', 't']]), ("mood", [['I', 'n', 'd'], ['S', 'u', 'b', 'j']]),
   ("finiteness", [['I', 'n', 'f'], ['P', 's', 'p'], ['I', 'm', 'p'], ['I', 'n', 'f', 'z', 'u']])]

/-- arguments of the constructor; `new` = conll_format is '2010' (any format besides '2009' and '2010' is an AssertionError, conll.py:157) -/
structure ConllCfg where
  ns : String
  new : Bool
  headAttr : String
  deprelAttr : String
  featAttr : String
  deriving DecidableEq, Repr

/-- the columns of the format -/
def ConllCfg.columns (cfg : ConllCfg) : List String := if cfg.new then conll2010Columns else conll2009Columns

/-- `word_class._make(fields)`: TypeError unless the number of fields is right -/
def makeWord (cols : List String) (fields : List (List Char)) : Except PyErr (Dict String (List Char)) :=
  if fields.length = cols.length then .ok (cols.zip fields) else .error .type

/-- conll.py:183-201: a line of a sentence; `none` for comments -/
def conllLine (cfg : ConllCfg) (line : List Char) : Except PyErr (Option (Dict String (List Char))) :=
  if line.head? = some '#' then .ok none
  else do
    let w ← makeWord cfg.columns (if cfg.new then splitChars '\t' line else (splitChars '\t' line).take 14)
    return some w

namespace DG

/-- conll.py:300-309 `add_val_only_features`, one category -/
def addCategory (ns : String) (d : Attrs) (v : List Char) (c : String × List (List Char)) : Attrs :=
  if v ∈ c.2 then Dict.put d (qual ns c.1) (if c.1 = "person" then .atom (.int (parseDec v)) else strVal (v.map Char.toLower)) else d

/-- conll.py:300-309 `add_val_only_features` -/
def addValOnly (ns : String) (d : Attrs) (feats : List Char) : Attrs :=
  (splitChars '|' feats).foldl (fun d v => morphFeatures.foldl (fun d c => addCategory ns d v c) d) d

/-- conll.py:311-321 `add_attrib_val_features`, one feature; ValueErrors are ignored.  (`int` of a string with characters outside ASCII is not modelled.) -/
def addAttribVal (ns : String) (d : Attrs) (f : List Char) : Attrs :=
  match splitChars '=' f with
  | [a, v] =>
    if a = "person".toList then
      match pyInt v with
      | some i => Dict.put d (qual ns (String.ofList a)) (.atom (.int i))
      | none => d
    else if v = ['*'] then d
    else Dict.put d (qual ns (String.ofList a)) (strVal v)
  | _ => d

/-- conll.py:282-335 `__add_morph_features` (with feature_format='unknown') -/
def addMorph (ns : String) (d : Attrs) (feats : List Char) : Attrs :=
  if '=' ∈ feats then (splitChars '|' feats).foldl (addAttribVal ns) d else addValOnly ns d feats

/-- `word.x` / `word.__getattribute__(x)` for a column; AttributeError otherwise -/
def wordField (w : Dict String (List Char)) (c : String) : Except PyErr (List Char) :=
  match Dict.find w c with
  | some v => .ok v
  | none => .error .attribute

/-- `feats[self.feat_attr]`, conll.py:249: KeyError if there is no such entry, TypeError (in the regular expression) if it is no string -/
def featString (d : Attrs) (k : String) : Except PyErr (List Char) :=
  match Dict.find d k with
  | some (.atom (.str s)) => .ok s.toList
  | some _ => .error .type
  | none => .error .key

/-- conll.py:244-249: the attributes of a token -/
def conllFeats (cfg : ConllCfg) (w : Dict String (List Char)) : Except PyErr Attrs := do
  let tok ← wordField w "token"
  let wid ← wordField w "word_id"
  let pos ← intOrError wid
  let d := Dict.put (Dict.put (Dict.put (w.map (fun p => (p.1, strVal p.2))) (qual cfg.ns "token") (strVal tok)) "label" (strVal tok)) "word_pos" (.atom (.int pos))
  let fs ← featString d cfg.featAttr
  return addMorph cfg.ns d fs

/-- `'s{}'.format(sent_number)` -/
def conllSentId (i : Nat) : NodeId := .str (String.ofList ('s' :: decimal i))

/-- `'{0}_t{1}'.format(sent_id, word_id)` -/
def conllTokenId (i : Nat) (w : List Char) : NodeId := .str (String.ofList ('s' :: decimal i ++ ['_', 't'] ++ w))

/-- `self.node[sent_id]['tokens'].append(token_id)`, conll.py:253 -/
def appendSentToken (g : DG) (s t : NodeId) : Except PyErr DG := do
  let v ← g.getAttr s "tokens"
  match v with
  | .list xs => g.setAttr s "tokens" (.list (xs ++ [idAtom t]))
  | _ => .error .attribute
where
  /-- a node ID as an element of a list -/
  idAtom : NodeId → Atom
    | .str s => .str s
    | .int i => .int i

/-- conll.py:224-254 `__add_token` -/
def conllAddToken (cfg : ConllCfg) (g : DG) (i : Nat) (w : Dict String (List Char)) : Except PyErr DG := do
  let wid ← wordField w "word_id"
  let feats ← conllFeats cfg w
  let t := conllTokenId i wid
  let g1 ← g.addNode t (.set [.str g.ns, .str (qual g.ns "token")]) (.dict feats) [("sent_pos", .atom (.int i))]
  let g2 := { g1 with tokens := g1.tokens ++ [t] }
  g2.appendSentToken (conllSentId i) t

/-- conll.py:264-271: the source of the dependency edge, which is added if it does not exist -/
def conllSource (g : DG) (i : Nat) (head : List Char) : Except PyErr (DG × NodeId) :=
  if head = ['0'] then return (g, conllSentId i)
  else
    let s := conllTokenId i head
    if Dict.has g.nodes s then return (g, s)
    else do
      let g1 ← g.addNode s (.set [.str g.ns]) .none []
      return (g1, s)

/-- conll.py:256-280 `__add_dependency` -/
def conllAddDependency (cfg : ConllCfg) (g : DG) (i : Nat) (w : Dict String (List Char)) : Except PyErr DG := do
  let head ← wordField w cfg.headAttr
  let rel ← wordField w cfg.deprelAttr
  let (g1, s) ← g.conllSource i head
  let wid ← wordField w "word_id"
  g1.addEdge s (conllTokenId i wid) (.set [.str g1.ns, .str (qual g1.ns "dependency")]) none .none
    [("relation_type", strVal rel), ("label", strVal rel), ("edge_type", .atom (.str "dominates"))]

/-- conll.py:172-174: what is done for a word -/
def conllAddWord (cfg : ConllCfg) (i : Nat) (g : DG) (w : Dict String (List Char)) : Except PyErr DG := do
  let g1 ← g.conllAddToken cfg i w
  g1.conllAddDependency cfg i w

/-- conll.py:172-174 with the generator of lines 183-201: what is done for a line -/
def conllAddLine (cfg : ConllCfg) (i : Nat) (g : DG) (line : List Char) : Except PyErr DG := do
  let w ← conllLine cfg line
  match w with
  | none => return g
  | some w => g.conllAddWord cfg i w

/-- conll.py:203-222 `__add_sentence_root_node` -/
def conllAddSentence (g : DG) (i : Nat) : Except PyErr DG := do
  let s := conllSentId i
  let g1 ← g.addNode s (.set [.str g.ns, .str (qual g.ns "sentence")]) .none [("tokens", .list [])]
  let g2 ← g1.addEdge g1.root s (.set [.str g1.ns, .str (qual g1.ns "sentence")]) none .none [("edge_type", .atom (.str "dominates"))]
  return { g2 with sentences := g2.sentences ++ [s] }

/-- conll.py:170-174: the loop over the sentences, `i` = number of the next sentence -/
def conllAddSentences (cfg : ConllCfg) : Nat → List (List Char) → DG → Except PyErr DG
  | _, [], g => .ok g
  | i, s :: ss, g => do
    let g1 ← g.conllAddSentence i
    let g2 ← (splitChars '\n' s).foldlM (conllAddLine cfg i) g1
    conllAddSentences cfg (i + 1) ss g2

/-- conll.py:128-142: the constructor of the base class is called without arguments; then name, namespace and root are assigned -/
def conllStart (name ns : String) : DG := { init "" "discoursegraph" none with name := name, ns := ns, root := .str (ns ++ ":root_node") }

end DG

/-- `s.strip()` for unicode strings -/
def stripUni (s : List Char) : List Char := ((s.dropWhile isUniSpace).reverse.dropWhile isUniSpace).reverse

/-- `s.split("\n\n")` -/
def splitBlank : List Char → List (List Char)
  | [] => [[]]
  | [c] => [[c]]
  | a :: b :: cs => if a = '\n' ∧ b = '\n' then [] :: splitBlank cs else pushHead a (splitBlank (b :: cs))

namespace DG

/-- conll.py:106-181 `ConllDocumentGraph` for a file with the given text (and the name, which is computed in lines 130-135) -/
def conllRead (cfg : ConllCfg) (name : String) (text : List Char) : Except PyErr DG := do
  let g := conllStart name cfg.ns
  let g ← g.addNode g.root (.set [.str g.ns]) .none []
  conllAddSentences cfg 1 (splitBlank (stripUni text)) g

/-- `docgraph.node[n].get(k)` -/
def nodeGet (g : DG) (n : NodeId) (k : String) : Except PyErr (Option Val) :=
  match Dict.find g.nodes n with
  | some a => .ok (Dict.find a k)
  | none => .error .key

/-- conll.py:480-498 `traverse_dependencies_up` (node_attr or the graph's lemma_attr given as `k`); `fuel` = remaining recursion depth.  The order of the incoming edges is that of networkx; here: of the source nodes.
(Values other than strings and numbers are not considered falsy.) -/
def traverseUp (k : String) : Nat → DG → NodeId → Gen Val
  | 0, _, _ => ([], some .recursion)
  | fuel + 1, g, n =>
    match g.inEdges n with
    | [] => ([], some .index)
    | e :: _ =>
      match g.nodeGet e.1 k with
      | .error x => ([], some x)
      | .ok v =>
        let here := match v with
          | none => []
          | some (.atom .none) => []
          | some (.atom (.str "")) => []
          | some (.atom (.int 0)) => []
          | some v => [v]
        match g.istoken e.1 none with
        | .error x => (here, some x)
        | .ok false => (here, none)
        | .ok true =>
          let rest := traverseUp k fuel g e.1
          (here ++ rest.1, rest.2)

end DG
end Dg
