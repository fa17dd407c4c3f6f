import Verif.Props.C29
import Verif.Lemmas.Relabel
import Verif.Lemmas.Edges
import Verif.Lemmas.Text
import Verif.Lemmas.GraphStep

/-! C47: the graph handed to graphviz. -/

namespace Dg
open Dict
namespace DG

/-- the text of a label that can be written: strings as they are, ints in decimal notation -/
def labelText : Val → Option (List Char)
  | .atom (.str s) => some s.toList
  | .atom (.int i) => some (decimalInt i)
  | _ => none

/-- the graphviz attributes `l` (a quoted label or none) of a node or edge with attributes `a` -/
def ShowsLabel (a : Attrs) (l : Option String) : Prop :=
  (find a "label" = none ∧ l = none) ∨ ∃ v cs, find a "label" = some v ∧ labelText v = some cs ∧ l = some (String.ofList (quoteChars cs))

/-- labels are strings or ints, if there are any -/
def LabelOK (a : Attrs) : Prop := ∀ v, find a "label" = some v → (labelText v).isSome

/-- the name graphviz sees for a node ID -/
def dotName (n : NodeId) : String := String.ofList (quoteChars n.chars)

theorem pydotLabel_spec {a : Attrs} (h : LabelOK a) : ∃ l, pydotLabel a = .ok l ∧ ShowsLabel a l := by
  unfold pydotLabel
  cases hf : find a "label" with
  | none => exact ⟨none, rfl, .inl ⟨hf, rfl⟩⟩
  | some v =>
    have hv := h v hf
    cases v with
    | atom x =>
      cases x with
      | str s => exact ⟨_, rfl, .inr ⟨_, _, hf, rfl, rfl⟩⟩
      | int i => exact ⟨_, rfl, .inr ⟨_, _, hf, rfl, rfl⟩⟩
      | none => simp [labelText] at hv
      | other r => simp [labelText] at hv
    | set xs => simp [labelText] at hv
    | list xs => simp [labelText] at hv
    | dict xs => simp [labelText] at hv

theorem pydotLabel_err {a : Attrs} (h : ¬ LabelOK a) : pydotLabel a = .error .type := by
  unfold LabelOK at h
  simp only [not_forall] at h
  obtain ⟨v, hf, hv⟩ := h
  unfold pydotLabel
  rw [hf]
  cases v with
  | atom x =>
    cases x with
    | str s => simp [labelText] at hv
    | int i => simp [labelText] at hv
    | none => rfl
    | other r => rfl
  | set xs => rfl
  | list xs => rfl
  | dict xs => rfl

theorem stripNodes_spec (ns : Dict NodeId Attrs) : ∀ (d : Dict String (Option String)), (∀ p ∈ ns, LabelOK p.2) → ((keys ns).map dotName).Nodup → (∀ n ∈ keys ns, dotName n ∉ keys d) →
    ∃ new, stripNodes ns d = .ok (d ++ new) ∧ List.Forall₂ (fun p q => q.1 = dotName p.1 ∧ ShowsLabel p.2 q.2) ns new := by
  induction ns with
  | nil => intro d _ _ _; exact ⟨[], by simp [stripNodes], .nil⟩
  | cons p ns ih =>
    intro d hl nd hd
    obtain ⟨n, a⟩ := p
    obtain ⟨l, h1, h2⟩ := pydotLabel_spec (hl (n, a) (by simp))
    simp only [keys, List.map_cons, List.nodup_cons] at nd hd
    have hnd : dotName n ∉ keys d := hd n (by simp)
    have hput : putLabel d (dotName n) l = d ++ [(dotName n, l)] := by
      have hf := (find_eq_none_iff d (dotName n)).2 hnd
      unfold putLabel
      cases l with
      | none => simp only [hf]; exact put_of_not_mem _ _ _ hnd
      | some x => simp only; exact put_of_not_mem _ _ _ hnd
    obtain ⟨new, h3, h4⟩ := ih (d ++ [(dotName n, l)]) (fun p hp => hl p (List.mem_cons_of_mem _ hp)) nd.2 (by
      intro m hm
      simp only [keys, List.map_append, List.map_cons, List.map_nil, List.mem_append, List.mem_singleton, not_or]
      refine ⟨hd m (List.mem_cons_of_mem _ hm), fun h => nd.1 ?_⟩
      exact List.mem_map.2 ⟨m, hm, h⟩)
    refine ⟨(dotName n, l) :: new, ?_, .cons ⟨rfl, h2⟩ h4⟩
    simp only [stripNodes, h1, bind, Except.bind]
    have : quoteId n = dotName n := rfl
    rw [this, hput, h3]
    simp

theorem stripEdges_spec (es : List (NodeId × NodeId × Key × Attrs)) (h : ∀ e ∈ es, LabelOK e.2.2.2) :
    ∃ new, stripEdges es = .ok new ∧ List.Forall₂ (fun e q => q.1 = dotName e.1 ∧ q.2.1 = dotName e.2.1 ∧ ShowsLabel e.2.2.2 q.2.2) es new := by
  induction es with
  | nil => exact ⟨[], rfl, .nil⟩
  | cons e es ih =>
    obtain ⟨new, h1, h2⟩ := ih (fun e he => h e (List.mem_cons_of_mem _ he))
    obtain ⟨l, h3, h4⟩ := pydotLabel_spec (h e (by simp))
    exact ⟨(quoteId e.1, quoteId e.2.1, l) :: new, by simp only [stripEdges, h3, h1, bind, Except.bind], .cons ⟨rfl, rfl, h4⟩ h2⟩

/-- no int ID is written like a string ID (as 1 and "1" are) -/
def IdsDistinct (g : DG) : Prop := ∀ i s, g.HasNode (.int i) → g.HasNode (.str s) → decimalInt i ≠ s.toList

theorem dotName_inj {g : DG} (h : IdsDistinct g) {m n : NodeId} (hm : g.HasNode m) (hn : g.HasNode n) (e : dotName m = dotName n) : m = n := by
  have e' : m.chars = n.chars := by
    unfold dotName at e
    exact c29_quote_injective (by have := congrArg String.toList e; simpa using this)
  cases m with
  | int i =>
    cases n with
    | int j =>
      have : decimalInt i = decimalInt j := e'
      rw [decimalInt_injective this]
    | str s => exact absurd e' (h i s hm hn)
  | str s =>
    cases n with
    | int j => exact absurd e'.symm (h j s hn hm)
    | str t =>
      have : s.toList = t.toList := e'
      rw [String.toList_inj.1 this]

/-- **C47, partial**.  For every document graph in which no int ID is written like a string ID and all labels are strings or ints, preprocess_for_pydot returns a graph with the same
name, exactly one node per node (named by its quoted ID, in the same order) and exactly one edge per edge (also for parallel edges) between the quoted IDs; each of them carries
its quoted label if there is one and nothing else.  Missing: graphs with IDs like 1 and "1", see `c47_fails_for_int_and_str_ids`. -/
theorem c47_preprocess_for_pydot_partial (g : DG) (hr : Reachable g) (hid : IdsDistinct g) (hn : ∀ n a, g.nodeAttrs n = some a → LabelOK a)
    (he : ∀ u v k a, g.edgeAttrs u v k = some a → LabelOK a) :
    ∃ s, preprocessForPydot g = .ok s ∧ s.name = g.name ∧ (keys s.nodes).Nodup ∧
      List.Forall₂ (fun p q => q.1 = dotName p.1 ∧ ShowsLabel p.2 q.2) g.nodes s.nodes ∧
      List.Forall₂ (fun e q => q.1 = dotName e.1 ∧ q.2.1 = dotName e.2.1 ∧ ShowsLabel e.2.2.2 q.2.2) g.edges s.edges := by
  have hnd : ((keys g.nodes).map dotName).Nodup :=
    List.Nodup.map_on (fun m hm n hn e => dotName_inj hid hm hn e) hr.inv.wf.nodesNodup
  obtain ⟨ns, h1, h2⟩ := stripNodes_spec g.nodes [] (fun p hp => hn p.1 p.2 (mem_find hr.inv.wf.nodesNodup hp)) hnd (by simp [keys])
  obtain ⟨es, h3, h4⟩ := stripEdges_spec g.edges (fun e hm => he _ _ _ _ ((mem_edges_iff hr.inv.wf _ _ _ _).1 hm))
  rw [List.nil_append] at h1
  refine ⟨⟨g.name, ns, es⟩, by simp only [preprocessForPydot, h1, h3, bind, Except.bind], rfl, ?_, h2, h4⟩
  have : keys ns = (keys g.nodes).map dotName := by
    clear h1 hnd hn
    unfold keys
    rw [List.map_map]
    revert h2
    generalize g.nodes = l
    intro h2
    induction h2 with
    | nil => rfl
    | cons hab _ ih => rw [List.map_cons, List.map_cons, ih, hab.1]; rfl
  rw [this]; exact hnd

/-- A label that is neither a string nor an int (e.g. a list) makes the export fail with a TypeError. -/
theorem c47_other_labels_refused (g : DG) (n : NodeId) (a : Attrs) (h : g.nodeAttrs n = some a) (hl : ¬ LabelOK a) : preprocessForPydot g = .error .type := by
  have key : ∀ (ns : Dict NodeId Attrs) (d : Dict String (Option String)), (n, a) ∈ ns → stripNodes ns d = .error .type := by
    intro ns
    induction ns with
    | nil => intro d h; simp at h
    | cons p ns ih =>
      intro d hm
      obtain ⟨m, b⟩ := p
      by_cases hb : LabelOK b
      · obtain ⟨l, h1, _⟩ := pydotLabel_spec hb
        simp only [stripNodes, h1, bind, Except.bind]
        apply ih
        rcases List.mem_cons.1 hm with e | hm
        · injection e with _ e; subst e; exact absurd hb hl
        · exact hm
      · simp only [stripNodes, pydotLabel_err hb, bind, Except.bind]
  simp only [preprocessForPydot, key g.nodes [] (find_some_mem h), bind, Except.bind]

/-- Finding: the nodes 1 and "1" of a document become one node. -/
theorem c47_fails_for_int_and_str_ids :
    let g := (init "" "dg" (some (.str "r"))).run [.addNode (.int 1) (.atom .none) .none [], .addNode (.str "1") (.atom .none) .none []]
    g.nodes.length = 3 ∧ (preprocessForPydot g).toOption.map (fun s => s.nodes.length) = some 2 := by
  decide +kernel

def dotDoc : DG := (init "doc" "a" (some (.str "r"))).run
  [.addNode (.int 1) (.atom .none) .none [("label", .atom (.str "say \"hi\"")), ("x", .list [])], .addEdge (.str "r") (.int 1) (.atom .none) none .none [("label", .atom (.int 5))],
   .addEdge (.str "r") (.int 1) (.atom .none) none .none []]

example : Reachable dotDoc ∧ dotDoc.edges.length = 2 ∧ (preprocessForPydot dotDoc).toOption.map (fun s => (s.nodes.map (·.1), s.edges.map (·.2.2))) =
    some (["\"r\"", "\"1\""], [some "\"5\"", none]) := by
  refine ⟨⟨"doc", "a", some (.str "r"), _, by decide, rfl⟩, by decide, by decide +kernel⟩

end DG
end Dg
