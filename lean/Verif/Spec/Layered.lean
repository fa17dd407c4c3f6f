/-
Specification of documents with several annotation layers (C73, C74).
-/
import Verif.Spec.Rename
import Verif.Spec.Edges
import Verif.Spec.Offsets
import Verif.Spec.Layers
import Verif.Lemmas.GraphStep

namespace Dg
namespace DG

/-- the ID that node `n` of the layer `o` has in a document with the tokens `toks`: the i-th token of the layer is the i-th token of the document, all other nodes have the same ID -/
def asIn (toks : List NodeId) (o : DG) (n : NodeId) : NodeId := applyMap (o.tokens.zip toks) n

/-- where an edge of the layer `o` that starts at `u` starts in the document `g'`: at the root of the document if it starts at the root of the layer -/
def startsAt (o g' : DG) (u : NodeId) : NodeId := if u = o.root then g'.root else asIn g'.tokens o u

/-- one of the layers `later` gives the attribute `x` to the node `n'` of the document `g'` -/
def GivenBy (later : List DG) (g' : DG) (n' : NodeId) (x : String) : Prop := ∃ o ∈ later, ∃ n, asIn g'.tokens o n = n' ∧ o.nodeAttr n x ≠ none

/-- the layer `o` is completely in the document `g'`; layers added `later` may have overwritten attributes of shared nodes:

* every node but the root, with its layers and attributes; the root is gone;
* every edge, each with an own copy, with the same attributes and (unless it starts at the root) the same layers. -/
structure LayerIn (later : List DG) (o g' : DG) : Prop where
  nodes : ∀ n, o.HasNode n → n ≠ o.root → g'.HasNode (asIn g'.tokens o n) ∧ ∀ l, o.NodeLayer n l → g'.NodeLayer (asIn g'.tokens o n) l
  attrs : ∀ n x v, n ≠ o.root → x ≠ "layers" → x ≠ "metadata" → o.nodeAttr n x = some v →
    g'.nodeAttr (asIn g'.tokens o n) x = some v ∨ GivenBy later g' (asIn g'.tokens o n) x
  rootGone : ¬ g'.HasNode o.root
  edges : ∃ κ : NodeId → NodeId → Key → Key,
    (∀ u v k a, o.edgeAttrs u v k = some a → ∃ a', g'.edgeAttrs (startsAt o g' u) (asIn g'.tokens o v) (κ u v k) = some a' ∧ (∀ x, x ≠ "layers" → Dict.find a' x = Dict.find a x) ∧
      (u ≠ o.root → ∀ l, AttrsLayer a' l ↔ AttrsLayer a l) ∧ (u = o.root → ∀ l, AttrsLayer a' l ↔ l = .str g'.ns)) ∧
    ∀ u v k u' v' k', o.HasEdge u v k → o.HasEdge u' v' k' →
      (startsAt o g' u, asIn g'.tokens o v, κ u v k) = (startsAt o g' u', asIn g'.tokens o v', κ u' v' k') → (u, v, k) = (u', v', k')

/-- everything in the document `g` is still there in `g'`; the layers added `later` may have overwritten attributes of shared nodes -/
structure KeptIn (later : List DG) (g g' : DG) : Prop where
  nodes : ∀ n, g.HasNode n → g'.HasNode n ∧ ∀ l, g.NodeLayer n l → g'.NodeLayer n l
  attrs : ∀ n x v, x ≠ "layers" → x ≠ "metadata" → g.nodeAttr n x = some v → g'.nodeAttr n x = some v ∨ GivenBy later g' n x
  edges : ∀ u v k, g.HasEdge u v k → g'.edgeAttrs u v k = g.edgeAttrs u v k

/-- everything in `g'` was in `g` or is in one of the layers -/
structure OnlyFrom (layers : List DG) (g g' : DG) : Prop where
  nodes : ∀ n', g'.HasNode n' → g.HasNode n' ∨ ∃ o ∈ layers, ∃ n, o.HasNode n ∧ n ≠ o.root ∧ asIn g'.tokens o n = n'
  edges : ∀ u' v' k', g'.HasEdge u' v' k' → g.HasEdge u' v' k' ∨ ∃ o ∈ layers, ∃ u v k, o.HasEdge u v k ∧ startsAt o g' u = u' ∧ asIn g'.tokens o v = v'
  count : g'.edges.length = g.edges.length + (layers.map (fun o => o.edges.length)).sum

/-- the metadata of the root of a layer -/
def metadataOf (o : DG) : Dict String Atom :=
  match o.nodeAttr o.root "metadata" with
  | some (.dict d) => d
  | _ => []

/-- a document that layers can be added to: a well-formed graph (as all graphs made with the API are), with different tokens that have the strings `strs`, and a root with metadata -/
structure Document (strs : List String) (g : DG) : Prop where
  sound : Inv g
  layered : NodesLayered False g
  strings : g.HasTokens strs
  distinct : g.tokens.Nodup
  root : g.root ∉ g.tokens
  metadata : ∃ d, g.nodeAttr g.root "metadata" = some (.dict d)

/-- a layer for a text with the tokens `strs`: a well-formed graph (as all graphs made with the API are), with a root that no edge leads to -/
structure Layer (strs : List String) (o : DG) : Prop where
  sound : Inv o
  layered : NodesLayeredNE o
  strings : o.HasTokens strs
  distinct : o.tokens.Nodup
  root : o.root ∉ o.tokens
  hasRoot : o.HasNode o.root
  noInEdges : ∀ u k, ¬ o.HasEdge u o.root k
  metadata : ∀ v, o.nodeAttr o.root "metadata" = some v → ∃ d, v = .dict d

/-- the IDs of layer and document do not get into each other's way: the layer does not know the document's tokens, its root and its token attribute (and a token called `0` or `''` does not meet an edge from a node to itself) -/
structure Apart (toks : List NodeId) (root : NodeId) (ns : String) (o : DG) : Prop where
  tokens : ∀ t ∈ toks, ¬ o.HasNode t
  root : ¬ o.HasNode root
  token : ∀ n, o.nodeAttr n (ns ++ (":" ++ "token")) = none
  loops : (∀ t ∈ toks, t ≠ .int 0 ∧ t ≠ .str "") ∨ ∀ u k, ¬ o.HasEdge u u k

end DG
end Dg
