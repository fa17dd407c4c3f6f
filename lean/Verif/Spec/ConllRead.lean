/-
Specification vocabulary for the CoNLL reader (C53).
-/
import Verif.Spec.Script
import Verif.Spec.Conll
import Verif.Spec.Anaphoricity
import Verif.Model.ConllRead

namespace Dg

/-! ### the file -/

/-- a line of a CoNLL file -/
inductive ConllLine
  | comment (c : List Char)
  | word (fields : List (List Char))
  deriving DecidableEq, Repr

/-- how the line is written: comments start with '#', the columns of a word are separated by tabs -/
def ConllLine.text : ConllLine → List Char
  | .comment c => '#' :: c
  | .word fs => joinChars ['\t'] fs

/-- the line can be written in the format: 17 columns, or at least 14 columns in the format of 2009 -/
def ConllLine.Ok (new : Bool) : ConllLine → Prop
  | .comment c => '\n' ∉ c
  | .word fs => (∀ f ∈ fs, '\t' ∉ f ∧ '\n' ∉ f) ∧ (if new then fs.length = 17 else 14 ≤ fs.length)

/-- the named columns of the words of a sentence -/
def conllWords (cols : List String) : List ConllLine → List (Dict String (List Char))
  | [] => []
  | .comment _ :: ls => conllWords cols ls
  | .word fs :: ls => cols.zip fs :: conllWords cols ls

/-- the text of a sentence: its lines -/
def conllSentText (ls : List ConllLine) : List Char := joinChars ['\n'] (ls.map ConllLine.text)

/-- The text of a file with the given sentences: between two sentences there is an empty line; white space at the beginning and at the end does not matter (but the last column of the last word is not
white space). -/
def ConllFile (new : Bool) (ss : List (List ConllLine)) (text : List Char) : Prop :=
  ss ≠ [] ∧ (∀ ls ∈ ss, ls ≠ [] ∧ ∀ l ∈ ls, l.Ok new) ∧
  ∃ pre post body, text = pre ++ body ++ post ∧ body = joinChars ['\n', '\n'] (ss.map conllSentText) ∧ (∀ c ∈ pre ++ post, isUniSpace c = true) ∧
    (∃ c, body.head? = some c ∧ isUniSpace c = false) ∧ ∃ c, body.getLast? = some c ∧ isUniSpace c = false

/-! ### features -/

/-- the piece `name=value` of a feature string; persons are numbers, the value `*` does not count -/
inductive AttribVal (p : List Char) : String → Val → Prop
  | person {v : List Char} {i : Int} : p = "person".toList ++ '=' :: v → '=' ∉ v → pyInt v = some i → AttribVal p "person" (.atom (.int i))
  | other {a : String} {v : List Char} : p = a.toList ++ '=' :: v → '=' ∉ a.toList → '=' ∉ v → a ≠ "person" → v ≠ ['*'] → AttribVal p a (.atom (.str (String.ofList v)))

/-- the piece is the value of a category -/
inductive ValOnly (p : List Char) : String → Val → Prop
  | person {n : Nat} : n ∈ [1, 2, 3] → p = decimal n → ValOnly p "person" (.atom (.int n))
  | other {cat : String} {vs : List String} : (cat, vs) ∈ [("gender", ["Masc", "Fem", "Neut"]), ("number", ["Sg", "Pl"]), ("case", ["Nom", "Gen", "Dat", "Acc"]), ("degree", ["Pos", "Comp", "Sup"]),
      ("tense", ["Pres", "Past"]), ("mood", ["Ind", "Subj"]), ("finiteness", ["Inf", "Psp", "Imp", "Infzu"])] → String.ofList p ∈ vs → ValOnly p cat (.atom (.str (String.ofList (p.map Char.toLower))))

/-- what a piece of a feature string says, depending on whether there is a '=' in the feature string -/
def PieceSays (fs p : List Char) (f : String) (v : Val) : Prop := if '=' ∈ fs then AttribVal p f v else ValOnly p f v

/-- the feature string gives the value `v` to the feature `f`: the last piece that says something about `f` says so.  Pieces are separated by '|'. -/
def FeatureIs (fs : List Char) (f : String) (v : Val) : Prop :=
  ∃ pre p post, fs = joinChars ['|'] (pre ++ p :: post) ∧ (∀ q ∈ pre ++ p :: post, '|' ∉ q) ∧ PieceSays fs p f v ∧ ∀ q ∈ post, ∀ v', ¬ PieceSays fs q f v'

namespace DG

/-- The attributes of the node of a word with the given columns and features: the columns, the token string (twice), the number of the word and the features.  (A feature called `token` wins over the token string.) -/
structure WordAttrs (ns : String) (w : Dict String (List Char)) (feats : List Char) (a : Attrs) : Prop where
  column : ∀ c v, Dict.find w c = some v → Dict.find a c = some (.atom (.str (String.ofList v)))
  token : ∀ t, Dict.find w "token" = some t → (∀ v, ¬ FeatureIs feats "token" v) → Dict.find a (qual ns "token") = some (.atom (.str (String.ofList t)))
  label : ∀ t, Dict.find w "token" = some t → Dict.find a "label" = some (.atom (.str (String.ofList t)))
  number : ∀ n i, Dict.find w "word_id" = some n → pyInt n = some i → Dict.find a "word_pos" = some (.atom (.int i))
  feature : ∀ f v, FeatureIs feats f v → Dict.find a (qual ns f) = some v
  only : ∀ k v, Dict.find a k = some v → (∃ x, Dict.find w k = some x) ∨ k = qual ns "token" ∨ k = "label" ∨ k = "word_pos" ∨ ∃ f, k = qual ns f ∧ FeatureIs feats f v

/-- what the reader needs to know about a word -/
structure CoWord where
  id : List Char
  head : List Char
  rel : List Char
  attrs : Attrs
  deriving DecidableEq, Repr

/-- the word with the given columns: head, relation and features are taken from the columns named in the arguments of the constructor; the number of the word is a number -/
def WordIs (cfg : ConllCfg) (w : Dict String (List Char)) (x : CoWord) : Prop :=
  Dict.find w "word_id" = some x.id ∧ (∃ i, pyInt x.id = some i) ∧ Dict.find w cfg.headAttr = some x.head ∧ Dict.find w cfg.deprelAttr = some x.rel ∧
  ∃ fs, Dict.find w cfg.featAttr = some fs ∧ WordAttrs cfg.ns w fs x.attrs ∧ (Dict.keys x.attrs).Nodup

/-- `'s1'`, `'s2'`, ... -/
def sentNode (i : Nat) : NodeId := .str (String.ofList ('s' :: decimal i))

/-- `'s1_t1'`, ... -/
def wordNode (i : Nat) (id : List Char) : NodeId := .str (String.ofList ('s' :: (decimal i ++ '_' :: 't' :: id)))

/-- the node a word depends on: the sentence if the head is 0 -/
def headNode (i : Nat) (x : CoWord) : NodeId := if x.head = ['0'] then sentNode i else wordNode i x.head

/-- The document with the given sentences (lists of words): sentences and words are numbered as in the file; a sentence node lists its tokens, a token has the attributes of the word and the number of its sentence;
the root dominates the sentences, the head of a word dominates the word.  A head that is not the number of a word of the sentence has a node nevertheless. -/
structure ConllGraph (ns : String) (xss : List (List CoWord)) (g : DG) : Prop where
  tokens : g.tokens = (xss.zipIdx 1).flatMap (fun p => p.1.map (fun x => wordNode p.2 x.id))
  sentences : g.sentences = (List.range' 1 xss.length).map sentNode
  sentence : ∀ (k : Nat) xs, xss[k]? = some xs → g.NodeIs (sentNode (k + 1)) [("tokens", .list (xs.map (fun x => tokenAtom (wordNode (k + 1) x.id))))] [ns, qual ns "sentence"]
  word : ∀ (k : Nat) xs x, xss[k]? = some xs → x ∈ xs → g.NodeIs (wordNode (k + 1) x.id) (Dict.put x.attrs "sent_pos" (.atom (.int ((k + 1 : Nat) : Int)))) [ns, qual ns "token"]
  noWord : ∀ (k : Nat) xs x, xss[k]? = some xs → x ∈ xs → x.head ≠ ['0'] → (∀ y ∈ xs, y.id ≠ x.head) → wordNode (k + 1) x.head ≠ .str (ns ++ ":root_node") → g.NodeIs (wordNode (k + 1) x.head) [] [ns]
  nodes : ∀ m, g.HasNode m ↔ m = .str "discoursegraph:root_node" ∨ m = .str (ns ++ ":root_node") ∨ ∃ (k : Nat) (xs : List CoWord), xss[k]? = some xs ∧ (m = sentNode (k + 1) ∨ ∃ x ∈ xs, m = wordNode (k + 1) x.id ∨ m = headNode (k + 1) x)
  rootEdge : ∀ (k : Nat) xs, xss[k]? = some xs → ∃ a, g.EdgeWith (.str (ns ++ ":root_node")) (sentNode (k + 1)) a ∧ MatchesArgs a [ns, qual ns "sentence"] [("edge_type", .atom (.str "dominates"))]
  wordEdge : ∀ (k : Nat) xs x, xss[k]? = some xs → x ∈ xs → ∃ a, g.EdgeWith (headNode (k + 1) x) (wordNode (k + 1) x.id) a ∧
    MatchesArgs a [ns, qual ns "dependency"] [("relation_type", .atom (.str (String.ofList x.rel))), ("label", .atom (.str (String.ofList x.rel))), ("edge_type", .atom (.str "dominates"))]
  edges : ∀ u v a, g.EdgeWith u v a → ∃ (k : Nat) (xs : List CoWord), xss[k]? = some xs ∧ ((u = .str (ns ++ ":root_node") ∧ v = sentNode (k + 1)) ∨ ∃ x ∈ xs, u = headNode (k + 1) x ∧ v = wordNode (k + 1) x.id)
  single : ∀ u v, g.edgeCount u v ≤ 1

end DG
end Dg
