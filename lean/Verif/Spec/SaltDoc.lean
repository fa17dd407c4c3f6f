/-
Specification of Salt documents as a whole: documents, graphs, linguistic documents.
-/
import Verif.Spec.Salt

namespace Dg
open Dict

/-- a document as Salt writes it: the root has only labels, nodes, edges and layers inside, and these have only labels inside, which are empty -/
def SXml.Flat (root : SXml) : Prop :=
  ∀ c ∈ root.children, (c.tag = "labels" ∧ c.children = []) ∨ (c.tag ∈ ["nodes", "edges", "layers"] ∧ ∀ d ∈ c.children, d.tag = "labels" ∧ d.children = [])

/-- the children of an element with a given tag -/
def SXml.kids (root : SXml) (tag : String) : List SXml := root.children.filter (fun c => c.tag = tag)

/-- the ID of the document is the value of the first label named `id` of the root -/
def SXml.DocId (root : SXml) (id : String) : Prop :=
  ∃ pre l post, root.children = pre ++ l :: post ∧ l.tag = "labels" ∧ find l.attrs "name" = some "id" ∧ find l.attrs "valueString" = some id ∧
    ∀ c ∈ pre, ¬ (c.tag = "labels" ∧ find c.attrs "name" = some "id")

/-- the document `d` says what the elements of the file say: one object for each element, in the same order (so that references are positions) -/
structure SXml.SaysDoc (root : SXml) (d : SaltDoc) : Prop where
  id : root.DocId d.docId
  nodes : List.Forall₂ SXml.Says (root.kids "nodes") d.nodes
  edges : List.Forall₂ SXml.Says (root.kids "edges") d.edges
  layers : List.Forall₂ SXml.Says (root.kids "layers") d.layers

/-- the objects among `es` that lead from `s` to `t` -/
def edgesBetween (es : List SaltObj) (s t : Int) : List SaltObj := es.filter (fun e => e.source = some s ∧ e.target = some t)

/-- the graph `g` consists of the nodes and edges of a document: numbered nodes with their attributes; missing ends of edges, without attributes; one edge for each pair of connected nodes, whose
attributes are those of the last edge between them that has the attribute -/
structure SaltGraph.Consists (g : SaltGraph) (ns es : List SaltObj) : Prop where
  nodes : ∀ (i : Nat) o, ns[i]? = some o → find g.nodes i = some o.dict
  missing : ∀ n : Int, (∀ i : Nat, i < ns.length → n ≠ i) → find g.nodes n = if ∃ e ∈ es, e.source = some n ∨ e.target = some n then some [] else none
  noEdge : ∀ s t, edgesBetween es s t = [] → find g.edges (s, t) = none
  edge : ∀ s t, edgesBetween es s t ≠ [] → ∃ a, find g.edges (s, t) = some a ∧
    ∀ k, find a k = ((edgesBetween es s t).filterMap (fun e => find e.dict k)).getLast?

/-- the nodes that node `i` is connected with by relations of a given class, in the order of the document -/
def SaltDoc.targets (d : SaltDoc) (c : SaltClass) (i : Int) : List Int := d.edges.filterMap (fun e => if e.cls = c ∧ e.source = some i then e.target else none)

/-- the nodes that are connected with node `i` by relations of a given class, in the order of the document -/
def SaltDoc.sources (d : SaltDoc) (c : SaltClass) (i : Int) : List Int := d.edges.filterMap (fun e => if e.cls = c ∧ e.target = some i then e.source else none)

/-- the last textual relation of node `i` -/
def SaltDoc.textualOf (d : SaltDoc) (i : Int) : Option SaltObj := (d.edges.filter (fun e => e.cls = .textual ∧ e.source = some i)).getLast?

/-- a list that is only there if it is not empty -/
def nonEmptyList {α : Type} : List α → Option (List α)
  | [] => none
  | x :: xs => some (x :: xs)

/-- node `i` with the positions of its text and the nodes it dominates and is dominated by -/
def SaltDoc.enriched (d : SaltDoc) (i : Nat) (o : SaltObj) : SaltObj :=
  { o with onset := match d.textualOf i with | some e => e.onset | none => o.onset
           offset := match d.textualOf i with | some e => e.offset | none => o.offset
           dominates := match nonEmptyList (d.targets .dominance i) with | some l => some l | none => o.dominates
           dominatedBy := match nonEmptyList (d.sources .dominance i) with | some l => some l | none => o.dominatedBy }

/-- a sequence of tokens (with their part of speech) and its sentences: each ends with the first token that is a full stop; the tokens after the last full stop belong to no sentence -/
inductive SentencesOf : List (Nat × String) → List (List Nat) → Prop
  | none {ts : List (Nat × String)} : (∀ t ∈ ts, t.2 ≠ "$.") → SentencesOf ts []
  | cons {s rest : List (Nat × String)} {stop : Nat} {ss : List (List Nat)} : (∀ t ∈ s, t.2 ≠ "$.") → SentencesOf rest ss →
      SentencesOf (s ++ (stop, "$.") :: rest) ((s.map Prod.fst ++ [stop]) :: ss)

/-- the tokens among the nodes with their part of speech -/
def posOf (ids : List Nat) (nodes : List (SaltObj × Nat)) (ts : List (Nat × String)) : Prop :=
  List.Forall₂ (fun n t => n.2 = t.1 ∧ ∃ fs, n.1.features = some fs ∧ find fs "tiger.pos" = some t.2) (nodes.filter (fun n => n.2 ∈ ids)) ts

/-- the orders are orders of the nodes that have spanned nodes, are spanned, dominate nodes, are dominated -/
structure SaltOrders.For (r : SaltOrders) (d : SaltDoc) : Prop where
  spans : r.spans.Nodup ∧ ∀ k, k ∈ r.spans ↔ ∃ e ∈ d.edges, e.cls = .spanning ∧ e.source = some k
  tokens : r.tokens.Nodup ∧ ∀ k, k ∈ r.tokens ↔ ∃ e ∈ d.edges, e.cls = .spanning ∧ e.target = some k
  dominating : r.dominating.Nodup ∧ ∀ k, k ∈ r.dominating ↔ ∃ e ∈ d.edges, e.cls = .dominance ∧ e.source = some k
  dominated : r.dominated.Nodup ∧ ∀ k, k ∈ r.dominated ↔ ∃ e ∈ d.edges, e.cls = .dominance ∧ e.target = some k

/-- the attributes of an object: names and values -/
inductive SaltObj.HasAttr (o : SaltObj) : String → SaltVal → Prop
  | name : HasAttr o "name" (.str o.name)
  | noId : o.elementId = none → HasAttr o "element_id" .none
  | id {i : String} : o.elementId = some i → HasAttr o "element_id" (.str i)
  | type : HasAttr o "xsi_type" (.str o.xsi)
  | labels : HasAttr o "labels" (.labels o.labels)
  | layers {l : List Int} : o.layers = some l → HasAttr o "layers" (.ints l)
  | features {f : Dict String String} : o.features = some f → HasAttr o "features" (.feats f)
  | source {i : Int} : o.source = some i → HasAttr o "source" (.int i)
  | target {i : Int} : o.target = some i → HasAttr o "target" (.int i)
  | onset {i : Int} : o.onset = some i → HasAttr o "onset" (.int i)
  | offset {i : Int} : o.offset = some i → HasAttr o "offset" (.int i)
  | text {s : String} : o.text = some s → HasAttr o "text" (.str s)
  | nodes {l : List Nat} : o.nodes = some l → HasAttr o "nodes" (.ints (l.map Int.ofNat))
  | edges {l : List Nat} : o.edges = some l → HasAttr o "edges" (.ints (l.map Int.ofNat))

end Dg
