import Verif.Lemmas.View
import Verif.Spec.RstGraph
import Mathlib.Data.List.Induction

/-! The content of the graph while an .rs3 file is read. -/

namespace Dg
open Dict
namespace DG

/-- what the reader does with an element -/
inductive RstEv
  /-- adds its node -/
  | decl (x : Rs3Xml)
  /-- adds the edge from its parent `p` -/
  | link (x : Rs3Xml) (p : List Char)

/-- the event itself -/
def RstEv.exec (rels : Dict (List Char) (List Char)) (g : DG) : RstEv → Except PyErr DG
  | .link x p => rstAddParent rels g x p (rstId g.ns x.id) (rstSegmentTypes rels x)
  | .decl x =>
    match x.kind with
    | .segment text =>
      g.addNode (rstId g.ns x.id) (.set [.str g.ns, .str (qual g.ns "segment")])
        (.dict [("label", strVal (rstSegmentLabel x.id (rstSegmentTypes rels x).1 (sanitizeString text))), (qual g.ns "text", strVal (sanitizeString text)), (qual g.ns "segment_type", strVal (rstSegmentTypes rels x).1)]) []
    | .group none => .error .key
    | .group (some ty) => do
      let g1 ← g.rstGroupNode (rstId g.ns x.id) (rstGroupAttrs g.ns x.id ty) (rstSegmentTypes rels x).1
      if x.parent = none then g1.rstSetRoot (rstId g.ns x.id) else return g1

/-- what is known about a node: it exists, its segment type, its relation name -/
structure Facts where
  known : Bool
  seg : Option (List Char)
  rel : Option (List Char)

/-- the type of an element -/
def ownType (rels : Dict (List Char) (List Char)) (x : Rs3Xml) : List Char := (rstSegmentTypes rels x).1

/-- "span" -/
def spanS : List Char := ['s', 'p', 'a', 'n']

/-- what an event adds to the knowledge about the node `m` -/
def factStep (ns : String) (rels : Dict (List Char) (List Char)) (m : NodeId) (f : Facts) : RstEv → Facts
  | .decl x =>
    if rstId ns x.id = m then
      ⟨true, if x.isSegment then some (ownType rels x) else if x.parent = none then some spanS else if ownType rels x ≠ spanS ∨ f.seg = none then some (ownType rels x) else f.seg, f.rel⟩
    else f
  | .link x p =>
    if rstId ns p = m then
      if f.known then
        if ownType rels x ≠ spanS then ⟨true, (rstSegmentTypes rels x).2.or f.seg, x.relname⟩ else f
      else ⟨true, (rstSegmentTypes rels x).2, x.relname⟩
    else f

/-- what is known about a node after the events -/
def facts (ns : String) (rels : Dict (List Char) (List Char)) (evs : List RstEv) (m : NodeId) : Facts := evs.foldl (factStep ns rels m) ⟨false, none, none⟩

/-- the declared elements -/
def declared : List RstEv → List Rs3Xml
  | [] => []
  | .decl x :: es => x :: declared es
  | .link _ _ :: es => declared es

/-- the edges -/
def linked (ns : String) (rels : Dict (List Char) (List Char)) : List RstEv → List EdgeSpec
  | [] => []
  | .decl _ :: es => linked ns rels es
  | .link x p :: es => rstEdge ns rels x p :: linked ns rels es

/-- the root -/
def rootAfter (ns : String) (evs : List RstEv) : NodeId :=
  match (declared evs).find? Rs3Xml.isRoot with
  | some x => rstId ns x.id
  | none => docRoot ns

/-- the attributes of an element that do not depend on other elements -/
def elemAttrs (ns : String) (rels : Dict (List Char) (List Char)) (x : Rs3Xml) : Attrs :=
  match x.kind with
  | .segment text => [("label", strVal (rstSegmentLabel x.id (ownType rels x) (sanitizeString text))), (qual ns "text", strVal (sanitizeString text))]
  | .group ty => rstGroupAttrs ns x.id (ty.getD [])

/-- the layers of an element -/
def elemLayers (ns : String) (x : Rs3Xml) : List String :=
  if x.isSegment then [ns, qual ns "segment"] else if x.parent = none then [ns, qual ns "root"] else [ns, qual ns "group"]

/-- the declaration of a node -/
def declOf (ns : String) (evs : List RstEv) (m : NodeId) : Option Rs3Xml := (declared evs).find? (fun x => decide (rstId ns x.id = m))

/-- the content of the graph after the events -/
def evView (ns : String) (rels : Dict (List Char) (List Char)) (evs : List RstEv) : View where
  ns := ns
  root := rootAfter ns evs
  tokens := []
  sentences := []
  has m := (facts ns rels evs m).known = true ∨ m = rootAfter ns evs
  attr m k :=
    if k = qual ns "segment_type" then (facts ns rels evs m).seg.map strVal
    else if k = qual ns "rel_name" then (facts ns rels evs m).rel.map strVal
    else if k = "metadata" then (if m = rootAfter ns evs then some (.dict []) else none)
    else match declOf ns evs m with
      | some x => find (elemAttrs ns rels x) k
      | none => none
  layer m l :=
    match declOf ns evs m with
    | some x => l ∈ (elemLayers ns x).map Atom.str
    | none => l = .str ns ∧ ((facts ns rels evs m).known = true ∨ m = rootAfter ns evs)
  edges := linked ns rels evs

/-- the event is possible after the events `evs` -/
def EvOk (ns : String) (evs : List RstEv) : RstEv → Prop
  | .decl x => x.id ∉ (declared evs).map Rs3Xml.id ∧ rstId ns x.id ≠ docRoot ns ∧ x.kind ≠ .group none ∧ (x.isRoot → ∀ y ∈ declared evs, ¬ y.isRoot)
  | .link x p => x ∈ declared evs ∧ x.parent = some p ∧ x.relname.isSome ∧ rstId ns p ≠ docRoot ns

/-- all events are possible -/
inductive EvsOk (ns : String) : List RstEv → Prop
  | nil : EvsOk ns []
  | snoc {evs : List RstEv} {e : RstEv} : EvsOk ns evs → EvOk ns evs e → EvsOk ns (evs ++ [e])

theorem facts_snoc (ns : String) (rels : Dict (List Char) (List Char)) (evs : List RstEv) (e : RstEv) (m : NodeId) : facts ns rels (evs ++ [e]) m = factStep ns rels m (facts ns rels evs m) e := by
  unfold facts
  rw [List.foldl_append]
  rfl

theorem declared_append (a b : List RstEv) : declared (a ++ b) = declared a ++ declared b := by
  induction a with
  | nil => rfl
  | cons e a ih => cases e <;> simp [declared, ih]

theorem linked_append (ns : String) (rels : Dict (List Char) (List Char)) (a b : List RstEv) : linked ns rels (a ++ b) = linked ns rels a ++ linked ns rels b := by
  induction a with
  | nil => rfl
  | cons e a ih => cases e <;> simp [linked, ih]

theorem rstId_inj {ns : String} {a b : List Char} (h : rstId ns a = rstId ns b) : a = b :=
  String.ofList_injective (qual_inj (NodeId.str.inj h))

theorem rel_known {ns : String} {rels : Dict (List Char) (List Char)} (evs : List RstEv) (m : NodeId) (h : (facts ns rels evs m).known = false) : (facts ns rels evs m).rel = none ∧ (facts ns rels evs m).seg = none := by
  induction evs using List.reverseRecOn with
  | nil => exact ⟨rfl, rfl⟩
  | append_singleton evs e ih =>
    rw [facts_snoc] at h ⊢
    cases e with
    | decl x =>
      simp only [factStep] at h ⊢
      split at h
      · cases h
      · rename_i hx
        rw [if_neg hx]
        exact ih h
    | link x p =>
      simp only [factStep] at h ⊢
      split at h
      · split at h
        · split at h
          · cases h
          · rename_i h1 _
            rw [h1] at h; cases h
        · cases h
      · rename_i hx
        rw [if_neg hx]
        exact ih h

/-- declared nodes are known -/
theorem known_declared {ns : String} {rels : Dict (List Char) (List Char)} (evs : List RstEv) (x : Rs3Xml) (h : x ∈ declared evs) : (facts ns rels evs (rstId ns x.id)).known = true := by
  induction evs using List.reverseRecOn with
  | nil => cases h
  | append_singleton evs e ih =>
    rw [facts_snoc]
    rw [declared_append, List.mem_append] at h
    cases e with
    | decl y =>
      simp only [factStep]
      split
      · rfl
      · rename_i hne
        rcases h with h | h
        · exact ih h
        · simp only [declared, List.mem_singleton] at h
          subst h
          exact (hne rfl).elim
    | link y p =>
      simp only [factStep]
      have h := h.resolve_right (by simp [declared])
      have := ih h
      rw [this]
      split
      · rw [if_pos rfl]
        split
        · rfl
        · exact this
      · exact this

/-- a link: the parent exists afterwards -/
theorem known_mono {ns : String} {rels : Dict (List Char) (List Char)} (evs : List RstEv) (e : RstEv) (m : NodeId) (h : (facts ns rels evs m).known = true) : (facts ns rels (evs ++ [e]) m).known = true := by
  rw [facts_snoc]
  cases e with
  | decl y =>
    simp only [factStep]
    split
    · rfl
    · exact h
  | link y p =>
    simp only [factStep]
    rw [h]
    split
    · rw [if_pos rfl]
      split
      · rfl
      · exact h
    · exact h

theorem docRoot_unknown {ns : String} {rels : Dict (List Char) (List Char)} {evs : List RstEv} (h : EvsOk ns evs) : (facts ns rels evs (docRoot ns)).known = false ∧ (∀ e ∈ linked ns rels evs, e.source ≠ docRoot ns ∧ e.target ≠ docRoot ns) ∧ declOf ns evs (docRoot ns) = none := by
  induction h with
  | nil => exact ⟨rfl, by simp [linked], rfl⟩
  | @snoc evs e hevs he ih =>
    obtain ⟨h1, h2, h3⟩ := ih
    have hdecl : ∀ x ∈ declared evs, rstId ns x.id ≠ docRoot ns := by
      intro x hx
      unfold declOf at h3
      simpa using List.find?_eq_none.1 h3 x hx
    rw [facts_snoc]
    unfold declOf
    rw [linked_append, declared_append, List.find?_append]
    cases e with
    | decl x =>
      obtain ⟨_, hx, _⟩ := he
      refine ⟨by simp only [factStep, if_neg hx]; exact h1, by simpa [linked] using h2, ?_⟩
      have : (declared evs).find? (fun x => decide (rstId ns x.id = docRoot ns)) = none := h3
      rw [this]
      simp [declared, hx]
    | link x p =>
      obtain ⟨hx, _, _, hp⟩ := he
      refine ⟨by simp only [factStep, if_neg hp]; exact h1, ?_, ?_⟩
      · intro e he
        rcases List.mem_append.1 he with he | he
        · exact h2 e he
        · simp only [linked, List.mem_singleton] at he
          subst he
          exact ⟨hp, hdecl x hx⟩
      · have : (declared evs).find? (fun x => decide (rstId ns x.id = docRoot ns)) = none := h3
        rw [this]
        simp [declared]

end DG
end Dg
