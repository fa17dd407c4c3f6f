import Mathlib.Data.List.Forall2
import Verif.Lemmas.AddsEdges

/-! C06: add_edges_from adds one edge per keyless tuple with the tuple's attributes taking precedence. -/

namespace Dg
open Dict
namespace DG

/-- what a tuple `(u, v, d)` has to become, given the shared attributes `A` (attr_dict + keywords) -/
structure TupleSpec (ns : String) (A : String → Option Val) (Alayer : Atom → Prop) (d : Attrs) (a : Attrs) : Prop where
  /-- tuple attributes win over shared ones -/
  attrs : ∀ x, x ≠ "layers" → find a x = (find d x).or (A x)
  /-- layers are a set of strings: those of the tuple (default `{ns}`) and the shared ones -/
  layers : ∃ L, find a "layers" = some (.set L) ∧ (∀ x ∈ L, ∃ s, x = Atom.str s) ∧
    ∃ dl, (find d "layers").getD (.set [.str ns]) = .set dl ∧
      ∀ l, l ∈ L ↔ l ∈ dl ∨ Alayer l ∨ (dl = [] ∧ (∀ x, ¬ Alayer x) ∧ l = .str ns)

/-- the shared attributes of an `add_edges_from` call -/
def sharedAttr (ad : AttrArg) (attr : Attrs) (x : String) : Option Val := (find attr x).or (argFind ad x)

/-- `l` is among the shared layers -/
def sharedLayer (ad : AttrArg) (attr : Attrs) (l : Atom) : Prop :=
  ∃ xs, sharedAttr ad attr "layers" = some (.set xs) ∧ l ∈ xs

/-- a keyless tuple -/
structure Tuple3 where
  u : NodeId
  v : NodeId
  d : Attrs

/-- as an element of `ebunch` -/
def Tuple3.item (t : Tuple3) : EdgeItem := .e3 t.u t.v t.d

theorem addEdgeItem_new {g g' : DG} (hi : Inv g) {ad dd : Attrs} {u v : NodeId}
    (nda : (keys ad).Nodup) (ndd : (keys dd).Nodup)
    (h : g.addEdgeItem ad u v none dd = (g', none)) :
    Inv g' ∧ ∃ k a, AddsEdges g g' [(u, v, k, a)] ∧ TupleSpec g.ns (find ad) (AttrsLayer ad) dd a := by
  rcases addEdgeItem_view hi nda ndd h with ⟨h0, _, _⟩ | ⟨_, k, a, dl, hk, hdl, hi', hkd, hattr, ⟨L, hL, hLs, hLne, hin, hout⟩, hn⟩
  · exact absurd rfl h0
  have hfresh : ¬ g.HasEdge u v k := by rw [hk]; exact not_hasEdge_freshKey u v
  have hnone : g.edgeAttrs u v k = none := by
    unfold HasEdge at hfresh; cases he : g.edgeAttrs u v k <;> simp_all
  have hnl : ∀ l, ¬ g.EdgeLayer u v k l := by intro l; unfold EdgeLayer; simp [hnone]
  have hm : SameMeta g g' := by have := sameMeta_addEdgeItem g ad u v none dd; rw [h] at this; exact this
  refine ⟨hi', k, a, addsEdges_single (setsEdge_of_view hkd hn hm) hfresh, ⟨?_, L, hL, hLs, dl, hdl, ?_⟩⟩
  · intro x hx; rw [hattr x hx]; simp [edgeAttr, hnone]
  · intro l
    constructor
    · intro hl
      rcases hout l hl with h | h | h | ⟨h1, h2, _, h3⟩
      · exact absurd h (hnl l)
      · exact Or.inl h
      · exact Or.inr (Or.inl h)
      · exact Or.inr (Or.inr ⟨h1, h2, h3⟩)
    · rintro (h | h | ⟨h1, h2, rfl⟩)
      · exact hin l (Or.inr (Or.inl h))
      · exact hin l (Or.inr (Or.inr h))
      · -- L is non-empty and can only contain the default
        obtain ⟨x, hx⟩ := List.exists_mem_of_ne_nil L hLne
        rcases hout x hx with h | h | h | ⟨_, _, _, rfl⟩
        · exact absurd h (hnl x)
        · rw [h1] at h; simp at h
        · exact absurd h (h2 x)
        · exact hx

/-- the shared attribute dict of the loop -/
theorem shared_find {ad : AttrArg} {attr A : Attrs} (hA : ∀ k, find A k = (find attr k).or (argFind ad k)) :
    find A = sharedAttr ad attr ∧ AttrsLayer A = sharedLayer ad attr := by
  have h1 : find A = sharedAttr ad attr := funext hA
  refine ⟨h1, ?_⟩
  funext l
  unfold AttrsLayer sharedLayer
  rw [h1]

theorem loop_new (A : Attrs) (ndA : (keys A).Nodup) (ts : List Tuple3) (hd : ∀ t ∈ ts, (keys t.d).Nodup) :
    ∀ (g g' : DG), Inv g → addEdgesLoop A g (ts.map Tuple3.item) = (g', none) →
    ∃ new : List Edge, AddsEdges g g' new ∧
      List.Forall₂ (fun (t : Tuple3) (e : Edge) => t.u = e.1 ∧ t.v = e.2.1 ∧
        TupleSpec g.ns (find A) (AttrsLayer A) t.d e.2.2.2) ts new := by
  induction ts with
  | nil =>
    intro g g' hi h
    simp [addEdgesLoop] at h
    subst h
    exact ⟨[], addsEdges_nil g, .nil⟩
  | cons t ts ih =>
    intro g g' hi h
    rw [List.map_cons, addEdgesLoop_cons] at h
    cases hr : g.addEdgeTuple A t.item with
    | mk g1 e =>
      rw [hr] at h
      cases e with
      | some e => simp at h
      | none =>
        simp only at h
        obtain ⟨hi1, k, a, hadd, hspec⟩ := addEdgeItem_new hi ndA (hd t (by simp)) hr
        obtain ⟨new, hnew, hall⟩ := ih (fun t ht => hd t (List.mem_cons_of_mem _ ht)) g1 g' hi1 h
        refine ⟨(t.u, t.v, k, a) :: new, addsEdges_cons hadd hnew, .cons ⟨rfl, rfl, hspec⟩ ?_⟩
        rw [hadd.rest.2.1] at hall
        exact hall

/-- **C06**.  If `add_edges_from(tuples, attr_dict, **attr)` over (u, v, attrs) tuples succeeds, the graph gained exactly
one new edge per tuple, in the tuple's direction, with the tuple's attributes (which win over the shared
ones) and the union of both layer sets; no previously existing edge was modified. -/
theorem c06_add_edges_from (g g' : DG) (hr : Reachable g) (ts : List Tuple3) (ad : AttrArg) (attr : Attrs)
    (hd : ∀ t ∈ ts, (keys t.d).Nodup) (nda : (keys attr).Nodup) (vad : AttrArg.Valid ad)
    (h : g.step (.addEdgesFrom (ts.map Tuple3.item) ad attr) = (g', none)) :
    ∃ new : List Edge, AddsEdges g g' new ∧
      List.Forall₂ (fun (t : Tuple3) (e : Edge) => t.u = e.1 ∧ t.v = e.2.1 ∧
        TupleSpec g.ns (sharedAttr ad attr) (sharedLayer ad attr) t.d e.2.2.2) ts new := by
  simp only [step] at h
  rcases addEdgesFrom_eq (g := g) (its := ts.map Tuple3.item) (ad := ad) (attr := attr) with ⟨_, h2⟩ | ⟨A, h2, hA⟩
  · rw [h2] at h; simp at h
  · rw [h2] at h
    obtain ⟨ndA, hAf⟩ := hA vad nda
    obtain ⟨h1, h3⟩ := shared_find hAf
    rw [← h1, ← h3]
    exact loop_new A ndA ts hd g g' hr.inv h

/-- an acceptable `layers` entry of an edge tuple / the shared attributes -/
def GoodLayers : Option Val → Prop
  | none => True
  | some v => ∃ xs, v = .set xs ∧ ∀ x ∈ xs, ∃ s, x = Atom.str s

/-- **C06 (success)**: the call succeeds if all `layers` given are sets of strings. -/
theorem c06_succeeds (g : DG) (hr : Reachable g) (ts : List Tuple3) (ad : AttrArg) (attr : Attrs)
    (hd : ∀ t ∈ ts, (keys t.d).Nodup) (nda : (keys attr).Nodup) (vad : AttrArg.Valid ad) (had : ad ≠ .bad)
    (hl : ∀ t ∈ ts, GoodLayers (find t.d "layers")) (hsl : GoodLayers (sharedAttr ad attr "layers")) :
    ∃ g', g.step (.addEdgesFrom (ts.map Tuple3.item) ad attr) = (g', none) := by
  have hi := hr.inv
  clear hr
  simp only [step]
  rcases addEdgesFrom_eq (g := g) (its := ts.map Tuple3.item) (ad := ad) (attr := attr) with ⟨h1, _⟩ | ⟨A, h2, hA⟩
  · exact absurd h1 had
  · rw [h2]
    clear h2
    obtain ⟨ndA, hAf⟩ := hA vad nda
    have hAl : ∃ xs, additionalLayers A = .ok xs := by
      unfold additionalLayers
      rw [hAf, ← sharedAttr]
      unfold GoodLayers at hsl
      split at hsl
      · rename_i h0; rw [h0]; exact ⟨[], rfl⟩
      · rename_i v h0
        rw [h0]
        obtain ⟨xs, rfl, hx⟩ := hsl
        simp only
        split
        · exact ⟨xs, strSet_isOk hx⟩
        · exact ⟨[], rfl⟩
    induction ts generalizing g with
    | nil => exact ⟨g, rfl⟩
    | cons t ts ih =>
      rw [List.map_cons, addEdgesLoop_cons]
      cases hr : g.addEdgeTuple A t.item with
      | mk g1 e =>
        cases e with
        | none =>
          have hi1 := inv_addEdgeTuple (g := g) hi ndA (it := t.item) (hd t (by simp))
          rw [hr] at hi1
          exact ih g1 (fun t ht => hd t (List.mem_cons_of_mem _ ht)) (fun t ht => hl t (List.mem_cons_of_mem _ ht)) hi1
        | some e =>
          exfalso
          obtain ⟨axs, hax⟩ := hAl
          have hlay : ∃ dl, layersEntry (g.defaultLayers t.d) = .ok (.set dl) ∧ ∀ x ∈ dl, ∃ s, x = Atom.str s := by
            have h0 := hl t (by simp)
            have h1 := find_defaultLayers g t.d
            unfold GoodLayers at h0
            unfold layersEntry
            rw [h1]
            split at h0
            · rename_i hf; rw [hf]; exact ⟨_, rfl, by simp⟩
            · rename_i v hf; rw [hf]; obtain ⟨xs, rfl, hx⟩ := h0; exact ⟨xs, rfl, hx⟩
          obtain ⟨dl, hdl, hdls⟩ := hlay
          -- the remaining steps of the body cannot fail
          rcases addEdgeItem_view hi ndA (hd t (by simp)) hr with ⟨_, _, h0⟩ | ⟨h0, _⟩
          · exact h0 ⟨⟨dl, hdl, hdls⟩, axs, hax⟩
          · simp at h0

/-- **C06 (keyed tuples)**.  A successful `add_edges_from([(u, v, key, attrs)], ...)` sets exactly the edge `(u, v, key)`:
tuple attributes win over shared attributes, which win over stored ones; layers are united. -/
theorem c06_keyed_tuple (g g' : DG) (hr : Reachable g) (u v : NodeId) (k : Key) (d : Attrs) (ad : AttrArg) (attr : Attrs)
    (hd : (keys d).Nodup) (nda : (keys attr).Nodup) (vad : AttrArg.Valid ad)
    (h : g.step (.addEdgesFrom [.e4 u v k d] ad attr) = (g', none)) :
    ∃ a dl, SetsEdge g g' u v k a ∧ (find d "layers").getD (.set [.str g.ns]) = .set dl ∧
      (∀ x, x ≠ "layers" → find a x = ((find d x).or (sharedAttr ad attr x)).or (g.edgeAttr u v k x)) ∧
      (∀ l, (g.EdgeLayer u v k l ∨ l ∈ dl ∨ sharedLayer ad attr l) → AttrsLayer a l) ∧
      (∀ l, AttrsLayer a l → g.EdgeLayer u v k l ∨ l ∈ dl ∨ sharedLayer ad attr l ∨
        (dl = [] ∧ (∀ x, ¬ sharedLayer ad attr x) ∧ (∀ x, ¬ g.EdgeLayer u v k x) ∧ l = .str g.ns)) := by
  simp only [step] at h
  rcases addEdgesFrom_eq (g := g) (its := [.e4 u v k d]) (ad := ad) (attr := attr) with ⟨_, h2⟩ | ⟨A, h2, hA⟩
  · rw [h2] at h; simp at h
  · rw [h2] at h
    obtain ⟨ndA, hAf⟩ := hA vad nda
    obtain ⟨h1, h3⟩ := shared_find hAf
    rw [addEdgesLoop_cons] at h
    cases hr' : g.addEdgeTuple A (.e4 u v k d) with
    | mk g1 e =>
      rw [hr'] at h
      cases e with
      | some e => simp at h
      | none =>
        simp only [addEdgesLoop, Prod.mk.injEq, and_true] at h
        subst h
        rcases addEdgeItem_view hr.inv ndA hd hr' with ⟨h0, _⟩ | ⟨_, k', a, dl, hk, hdl, _, hkd, hattr, ⟨L, hL, _, _, hin, hout⟩, hn⟩
        · exact absurd rfl h0
        · simp only [Option.getD_some] at hk; subst hk
          have hm : SameMeta g g1 := by
            have := sameMeta_addEdgeItem g A u v (some k') d
            simp only [addEdgeTuple] at hr'; rw [hr'] at this; exact this
          refine ⟨a, dl, setsEdge_of_view hkd hn hm, hdl, ?_, ?_, ?_⟩
          · rw [← h1]; exact hattr
          · rw [← h3]
            intro l hl
            exact ⟨L, hL, hin l hl⟩
          · rw [← h3]
            rintro l ⟨L', hL', hl⟩
            rw [hL] at hL'; injection hL' with hL'; injection hL' with hL'; subst hL'
            exact hout l hl

/-- **C06 (malformed tuples)**.  A tuple that is neither a 3- nor a 4-tuple raises AttributeError after the preceding
tuples were added; the following ones are not. -/
theorem c06_bad_tuple (g g' : DG) (pre post : List EdgeItem) (ad : AttrArg) (attr : Attrs)
    (h : g.step (.addEdgesFrom pre ad attr) = (g', none)) :
    g.step (.addEdgesFrom (pre ++ .badLen :: post) ad attr) = (g', some .attribute) := by
  simp only [step] at h ⊢
  have key : ∀ A (pre : List EdgeItem) g, addEdgesLoop A g pre = (g', none) →
      addEdgesLoop A g (pre ++ .badLen :: post) = (g', some .attribute) := by
    intro A pre
    induction pre with
    | nil => intro g h; simp [addEdgesLoop] at h; subst h; simp [addEdgesLoop]
    | cons t pre ih =>
      intro g h
      rw [addEdgesLoop_cons] at h
      rw [List.cons_append, addEdgesLoop_cons]
      split at h
      · rename_i g1 h1; exact ih g1 h
      · simp at h
  unfold addEdgesFrom at h ⊢
  cases ad with
  | none => exact key _ _ _ h
  | dict d => exact key _ _ _ h
  | bad => simp at h

/-- non-vacuity: two parallel keyless tuples and a shared keyword attribute and layer -/
example :
    let g := (init "" "dg" none).run [.addEdge (.int 1) (.int 2) (.atom .none) none .none []]
    let ts : List Tuple3 := [⟨.int 1, .int 2, [("w", .atom (.int 5))]⟩, ⟨.int 1, .int 2, [("layers", .set [.str "t"])]⟩]
    Reachable g ∧
    (g.step (.addEdgesFrom (ts.map Tuple3.item) (.dict [("layers", .set [.str "s"])]) [("w", .atom (.int 1))])).2 = none ∧
    (g.step (.addEdgesFrom (ts.map Tuple3.item) (.dict [("layers", .set [.str "s"])]) [("w", .atom (.int 1))])).1.kd?
      (.int 1) (.int 2) = some [
        (.int 0, [("layers", .set [.str "dg"])]),
        (.int 1, [("w", .atom (.int 5)), ("layers", .set [.str "dg", .str "s"])]),
        (.int 2, [("w", .atom (.int 1)), ("layers", .set [.str "t", .str "s"])])] := by
  refine ⟨⟨"", "dg", none, _, ?_, rfl⟩, by decide, by decide⟩
  simp [Op.Valid, AttrArg.Valid, keys]

end DG
end Dg
