/-
Specification of the content of a graph read from a URML document.
-/
import Verif.Spec.RstGraph
import Verif.Spec.Dag
import Verif.Model.Urml

namespace Dg

namespace UrmlSeg

/-- the words of a segment that become tokens: the texts of the `<sign>` elements, if there are any, otherwise the whitespace-separated words of its text (if wanted) -/
def words (tokenize : Bool) (s : UrmlSeg) : List (Option (List Char)) :=
  if s.signs = [] then (if tokenize then (splitWs (s.text.getD [])).map some else []) else s.signs

/-- ID of the token number `i` -/
def tokenName (s : UrmlSeg) (i : Nat) : String := s.id ++ String.ofList (['_'] ++ decimal i)

/-- the tokens of a segment with the names of their nodes -/
def tokens (tokenize : Bool) (s : UrmlSeg) : List (String × Option (List Char)) := (s.words tokenize).zipIdx.map (fun w => (s.tokenName w.2, w.1))

end UrmlSeg

namespace UrmlRel

/-- the nucleus of a hypotactic relation -/
def nucleus (r : UrmlRel) : String := ((r.args.find? (fun a => a.1 = .nucleus)).map Prod.snd).getD ""

/-- the satellite of a hypotactic relation -/
def satellite (r : UrmlRel) : String := ((r.args.find? (fun a => a.1 = .satellite)).map Prod.snd).getD ""

/-- a relation of nuclei, or of one nucleus and one satellite (in any order) -/
def Ok (r : UrmlRel) : Prop := r.par = true ∨ ∃ a b, r.args = [(.nucleus, a), (.satellite, b)] ∨ r.args = [(.satellite, b), (.nucleus, a)]

/-- which edges (source and target IDs) the relation stands for: from the relation to each nucleus; from the nucleus to the satellite -/
def links (r : UrmlRel) : List (String × String) :=
  if r.par then r.args.map (fun a => (r.id, a.2)) else [(r.id, r.nucleus), (r.nucleus, r.satellite)]

end UrmlRel

namespace UrmlDoc

/-- IDs of the segments and relations -/
def ids (doc : UrmlDoc) : List String := doc.segments.map UrmlSeg.id ++ doc.relations.map UrmlRel.id

/-- IDs of the arguments of all relations -/
def argIds (doc : UrmlDoc) : List String := doc.relations.flatMap (fun r => r.args.map Prod.snd)

/-- the tokens of the document with the names of their nodes -/
def tokens (tokenize : Bool) (doc : UrmlDoc) : List (String × Option (List Char)) := doc.segments.flatMap (UrmlSeg.tokens tokenize)

/-- The document can be represented: IDs are unique, no ID looks like that of a token of a segment, no ID is `root_node`, hypotactic relations have one nucleus and one satellite. -/
structure Ok (doc : UrmlDoc) : Prop where
  unique : doc.ids.Nodup
  tokens : ∀ s ∈ doc.segments, ∀ i, s.tokenName i ∉ doc.ids ++ doc.argIds
  root : "root_node" ∉ doc.ids ++ doc.argIds
  rels : ∀ r ∈ doc.relations, r.Ok

/-- source and target of the edges the document stands for -/
def links (tokenize : Bool) (doc : UrmlDoc) : List (String × String) :=
  doc.segments.flatMap (fun s => (s.tokens tokenize).map (fun t => (s.id, t.1))) ++ doc.relations.flatMap UrmlRel.links

/-- `b` is directly below `a` -/
def Link (tokenize : Bool) (doc : UrmlDoc) (a b : String) : Prop := (a, b) ∈ doc.links tokenize

/-- nothing is below itself -/
def NoCycle (tokenize : Bool) (doc : UrmlDoc) : Prop := ∀ a, ¬ Relation.TransGen (doc.Link tokenize) a a

/-- `a` is the origin of a longest path (with at least one edge) -/
def LongestFrom (tokenize : Bool) (doc : UrmlDoc) (a : String) : Prop :=
  ∃ p, p ≠ [] ∧ List.IsChain (doc.Link tokenize) (a :: p) ∧ ∀ b q, List.IsChain (doc.Link tokenize) (b :: q) → q.length ≤ p.length

/-- `a` is the ID of a relation that has `b` as argument -/
def Contains (doc : UrmlDoc) (a b : String) : Prop := ∃ r ∈ doc.relations, r.id = a ∧ b ∈ r.args.map Prod.snd

/-- Each element is argument of one relation at most, and no relation contains itself, directly or indirectly. -/
structure Hierarchical (doc : UrmlDoc) : Prop where
  once : doc.argIds.Nodup
  acyclic : ∀ a, ¬ Relation.TransGen doc.Contains a a

/-- the elements that are not arguments of a relation -/
def Top (doc : UrmlDoc) (a : String) : Prop := a ∈ doc.ids ∧ a ∉ doc.argIds

end UrmlDoc

namespace DG

/-- the edges of a segment: to its tokens -/
def urmlSegEdges (ns : String) (tokenize : Bool) (s : UrmlSeg) : List EdgeSpec :=
  (s.tokens tokenize).map (fun t => ⟨.str (qual ns s.id), .str (qual ns t.1), [ns, qual ns "token"], [("edge_type", .atom (.str "spans"))]⟩)

/-- the edges of a relation carry its name and type -/
def urmlRelEdges (ns : String) (r : UrmlRel) : List EdgeSpec :=
  r.links.map (fun l => ⟨.str (qual ns l.1), .str (qual ns l.2), [ns],
    [(qual ns "rel_name", strVal r.type), (qual ns "rel_type", .atom (.str (if r.par then "parRelation" else "hypRelation"))), ("label", .atom (.str (ns ++ ":" ++ String.ofList r.type))),
     ("edge_type", .atom (.str (if r.par then "spans" else "dominates")))]⟩)

/-- all edges -/
def urmlEdges (ns : String) (tokenize : Bool) (doc : UrmlDoc) : List EdgeSpec := doc.segments.flatMap (urmlSegEdges ns tokenize) ++ doc.relations.flatMap (urmlRelEdges ns)

end DG
end Dg
