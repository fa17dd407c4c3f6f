import Verif.Lemmas.DisGraph
import Verif.Lemmas.CopyGraph
import Verif.Props.C41
import Mathlib.Data.List.Pairwise

/-! Reading a whole .dis file: the calls, and the names of the nodes. -/

namespace Dg
open Dict
open Rst (disRange disRole disLabel disBelow disParts disWords WellFormed NoMarks)

/-! ### numbers of EDUs -/

namespace DisPart

/-- number of EDUs -/
def len (p : DisPart) : Nat := p.tree.edus.length

/-- `b` is behind `a` -/
def Before (a b : DisPart) : Prop := a.first + a.len ≤ b.first

end DisPart

theorem Rst.edusAll_dirParts (first : Nat) (name : List Char) (nucs : List Nuc) (kids : List (Nuc × Rst)) : (∀ q ∈ Rst.dirParts first name nucs kids, first ≤ q.first ∧ q.first + q.len ≤ first + (Rst.edusAll kids).length) ∧ (Rst.dirParts first name nucs kids).Pairwise DisPart.Before := by
  induction kids generalizing first with
  | nil => exact ⟨by simp [dirParts], .nil⟩
  | cons k ks ih =>
    obtain ⟨n, t⟩ := k
    obtain ⟨h1, h2⟩ := ih (first + t.edus.length)
    rw [dirParts]
    simp only [edusAll, List.length_append]
    refine ⟨?_, List.pairwise_cons.2 ⟨?_, h2⟩⟩
    · intro q hq
      rcases List.mem_cons.1 hq with rfl | hq
      · simp only [DisPart.len]; omega
      · have := h1 q hq
        omega
    · intro q hq
      exact (h1 q hq).1

/-- the parts lie within the whole, one behind the other, and are shorter -/
theorem DisPart.parts_range {p : DisPart} (hw : p.tree.WellFormed) : (∀ q ∈ p.parts, p.first ≤ q.first ∧ q.first + q.len ≤ p.first + p.len ∧ q.len < p.len) ∧ p.parts.Pairwise Before := by
  cases ht : p.tree with
  | edu s => simp [parts, ht]
  | rel name kids =>
    obtain ⟨h1, h2⟩ := Rst.edusAll_dirParts p.first name (kids.map Prod.fst) kids
    have hp : p.parts = Rst.dirParts p.first name (kids.map Prod.fst) kids := by simp only [parts, ht]
    rw [hp]
    refine ⟨?_, h2⟩
    intro q hq
    have hl : p.len = (Rst.edusAll kids).length := by simp only [len, ht, Rst.edus]
    rw [hl]
    refine ⟨(h1 q hq).1, (h1 q hq).2, ?_⟩
    obtain ⟨k1, k2, ks, hk⟩ := Rst.two_kids hw ht
    -- another part is not empty
    have hpos : ∀ r ∈ p.parts, 1 ≤ r.len := fun r hr => Rst.edus_pos (hw.part (part hr))
    rw [hp] at hpos
    have hlen : 2 ≤ (Rst.dirParts p.first name (kids.map Prod.fst) kids).length := by
      have := congrArg List.length (Rst.dirParts_trees p.first name (kids.map Prod.fst) kids)
      rw [List.length_map] at this
      rw [this, hk]; simp
    generalize Rst.dirParts p.first name (kids.map Prod.fst) kids = ps at *
    obtain ⟨a, b, rest, rfl⟩ : ∃ a b rest, ps = a :: b :: rest := by
      match ps, hlen with
      | a :: b :: rest, _ => exact ⟨a, b, rest, rfl⟩
    have hab : a.Before b := by
      rw [List.pairwise_cons] at h2
      exact h2.1 b (by simp)
    rcases List.mem_cons.1 hq with rfl | hq
    · have h3 := h1 b (by simp)
      have h4 := hpos b (by simp)
      have h5 := (h1 q (by simp)).1
      unfold Before at hab
      omega
    · have h3 := (List.pairwise_cons.1 h2).1 q hq
      have h4 := hpos a (by simp)
      have h5 := (h1 a (by simp)).1
      have h6 := (h1 q (List.mem_cons_of_mem _ hq)).2
      unfold Before at h3
      omega

/-- what is visited lies within the part and is well-formed -/
theorem DisPart.visited_range (t : Rst) : ∀ p : DisPart, p.tree = t → t.WellFormed → ∀ q ∈ p.visited, p.first ≤ q.first ∧ q.first + q.len ≤ p.first + p.len ∧ Rst.Part q.tree p.tree ∧ (q = p ∨ q.len < p.len) := by
  induction t using Rst.ind with
  | h1 s =>
    intro p ht _ q hq
    rw [visited_eq] at hq
    simp [parts, ht] at hq
    subst hq
    exact ⟨by omega, by omega, .refl _, .inl rfl⟩
  | h2 a kids ih =>
    intro p ht hw q hq
    rw [visited_eq] at hq
    rcases List.mem_cons.1 hq with rfl | hq
    · exact ⟨by omega, by omega, .refl _, .inl rfl⟩
    · obtain ⟨c, hc, hq⟩ := List.mem_flatMap.1 hq
      have hc := List.mem_of_mem_tail hc
      have hck : (c.nuc, c.tree) ∈ kids := by
        simp only [parts, ht] at hc
        exact Rst.mem_dirParts hc
      have hpt := part hc
      obtain ⟨r1, r2, r3⟩ := (parts_range (p := p) (ht ▸ hw)).1 c hc
      obtain ⟨i1, i2, i3, i4⟩ := ih _ hck c rfl (hw.part (ht ▸ hpt)) q hq
      refine ⟨by omega, by omega, i3.trans hpt, .inr ?_⟩
      rcases i4 with rfl | i4 <;> omega

/-- different parts cover different EDUs -/
def DisPart.Differ (a b : DisPart) : Prop := a.first ≠ b.first ∨ a.len ≠ b.len

theorem visited_list_pairwise {ps : List DisPart} (hw : ∀ p ∈ ps, p.tree.WellFormed) (h : ps.Pairwise DisPart.Before) (hv : ∀ p ∈ ps, p.visited.Pairwise DisPart.Differ) : (ps.flatMap DisPart.visited).Pairwise DisPart.Differ := by
  induction ps with
  | nil => exact .nil
  | cons p ps ih =>
    obtain ⟨h1, h2⟩ := List.pairwise_cons.1 h
    rw [List.flatMap_cons, List.pairwise_append]
    refine ⟨hv p (by simp), ih (fun q hq => hw q (by simp [hq])) h2 (fun q hq => hv q (by simp [hq])), ?_⟩
    intro a ha b hb
    obtain ⟨q, hq, hb⟩ := List.mem_flatMap.1 hb
    have ra := DisPart.visited_range _ p rfl (hw p (by simp)) a ha
    have rb := DisPart.visited_range _ q rfl (hw q (by simp [hq])) b hb
    have := h1 q hq
    unfold DisPart.Before at this
    have pa : 1 ≤ a.len := Rst.edus_pos ((hw p (by simp)).part ra.2.2.1)
    left
    omega

theorem DisPart.visited_pairwise (t : Rst) : ∀ p : DisPart, p.tree = t → t.WellFormed → p.visited.Pairwise Differ := by
  induction t using Rst.ind with
  | h1 s =>
    intro p ht _
    rw [visited_eq]
    simp [parts, ht]
  | h2 a kids ih =>
    intro p ht hw
    rw [visited_eq, List.pairwise_cons]
    obtain ⟨r1, r2⟩ := parts_range (p := p) (ht ▸ hw)
    have hsub : p.parts.tail.Sublist p.parts := List.tail_sublist _
    have hcw : ∀ c ∈ p.parts, c.tree.WellFormed := fun c hc => (ht ▸ hw : p.tree.WellFormed).part (part hc)
    constructor
    · intro q hq
      obtain ⟨c, hc, hq⟩ := List.mem_flatMap.1 hq
      have hc := List.mem_of_mem_tail hc
      have h1 := (r1 c hc).2.2
      have h2 := (visited_range _ c rfl (hcw c hc) q hq).2.2.2
      right
      rcases h2 with rfl | h2 <;> omega
    · refine visited_list_pairwise (fun c hc => hcw c (List.mem_of_mem_tail hc)) (r2.sublist hsub) ?_
      intro c hc
      have hc := List.mem_of_mem_tail hc
      have hck : (c.nuc, c.tree) ∈ kids := by
        simp only [parts, ht] at hc
        exact Rst.mem_dirParts hc
      exact ih _ hck c rfl (hcw c hc)

namespace Rst

/-- the document as a part -/
def whole (t : Rst) : DisPart := ⟨1, .N, [], t⟩

theorem docParts_eq (t : Rst) : t.docParts = t.whole.parts := by cases t <;> rfl

theorem visited_pairwise {t : Rst} (hw : t.WellFormed) : t.visited.Pairwise DisPart.Differ := by
  unfold visited
  rw [docParts_eq]
  exact visited_list_pairwise (fun c hc => hw.part (DisPart.part hc)) (DisPart.parts_range (p := t.whole) hw).2 (fun c hc => DisPart.visited_pairwise _ c rfl (hw.part (DisPart.part hc)))

theorem visited_mem {t : Rst} (hw : t.WellFormed) {p : DisPart} (hp : p ∈ t.visited) : Part p.tree t ∧ p.len < t.edus.length := by
  obtain ⟨c, hc, hp⟩ := List.mem_flatMap.1 hp
  rw [docParts_eq] at hc
  have h1 := DisPart.visited_range _ c rfl (hw.part (DisPart.part hc)) p hp
  have h2 := (DisPart.parts_range (p := t.whole) hw).1 c hc
  refine ⟨h1.2.2.1.trans (DisPart.part hc), ?_⟩
  have : t.whole.len = t.edus.length := rfl
  rcases h1.2.2.2 with rfl | h <;> omega

end Rst

/-! ### names -/

theorem colon_decimal (n : Nat) : ':' ∉ decimal n := fun h => absurd (decimal_digits n _ h) (by decide)

theorem spanName_inj {a b c d : Nat} (h : ['s', 'p', 'a', 'n', ':'] ++ decimal a ++ ['-'] ++ decimal b = ['s', 'p', 'a', 'n', ':'] ++ decimal c ++ ['-'] ++ decimal d) : a = c ∧ b = d := by
  simp only [List.append_assoc] at h
  have h := List.append_cancel_left h
  obtain ⟨h1, h2⟩ := DG.sep_cancel (minus_not_mem_decimal a) (minus_not_mem_decimal c) h
  exact ⟨decimal_injective h1, decimal_injective h2⟩

theorem spanName_ne {n : Nat} {r r' : List Char} (h : decimal n ++ r' = ['s', 'p', 'a', 'n', ':'] ++ r) : False := by
  obtain ⟨c, cs, hc⟩ := List.exists_cons_of_ne_nil (decimal_ne_nil n)
  have hd := decimal_digits n c (by simp [hc])
  rw [hc] at h
  have := (List.cons.inj h).1
  rw [this] at hd
  exact absurd hd (by decide)

namespace DisPart

theorem node_inj {ns : String} {p q : DisPart} (hp : p.tree.WellFormed) (hq : q.tree.WellFormed) (h : p.node ns = q.node ns) : p.first = q.first ∧ p.len = q.len := by
  have h : p.name = q.name := String.ofList_injective (DG.qual_inj (NodeId.str.inj h))
  have pp := Rst.edus_pos hp
  have pq := Rst.edus_pos hq
  unfold name last at h
  cases hpt : p.tree with
  | edu s =>
    cases hqt : q.tree with
    | edu s' =>
      rw [hpt, hqt] at h
      exact ⟨decimal_injective h, by simp [len, hpt, hqt, Rst.edus]⟩
    | rel n ks =>
      rw [hpt, hqt] at h
      simp only at h
      rw [List.append_assoc, List.append_assoc] at h
      exact (spanName_ne (r' := []) (by rw [List.append_nil]; exact h)).elim
  | rel n ks =>
    cases hqt : q.tree with
    | edu s' =>
      rw [hpt, hqt] at h
      simp only at h
      rw [List.append_assoc, List.append_assoc] at h
      exact (spanName_ne (r' := []) (by rw [List.append_nil]; exact h.symm)).elim
    | rel n' ks' =>
      rw [hpt, hqt] at h
      simp only at h
      obtain ⟨h1, h2⟩ := spanName_inj h
      refine ⟨h1, ?_⟩
      simp only [len, hpt, hqt]
      rw [hpt] at pp
      rw [hqt] at pq
      omega

theorem token_inj {ns : String} {p q : DisPart} {i j : Nat} (h : p.tokenNode ns i = q.tokenNode ns j) : p.first = q.first ∧ i = j := by
  have h := String.ofList_injective (DG.qual_inj (NodeId.str.inj h))
  simp only [List.append_assoc] at h
  obtain ⟨h1, h2⟩ := DG.sep_cancel (DG.underscore_decimal _) (DG.underscore_decimal _) h
  exact ⟨decimal_injective h1, decimal_injective h2⟩

theorem token_ne {ns : String} {p q : DisPart} {i : Nat} (h : p.tokenNode ns i = q.node ns) : False := by
  have h : decimal p.first ++ ['_'] ++ decimal i = q.name := String.ofList_injective (DG.qual_inj (NodeId.str.inj h))
  unfold name at h
  cases hqt : q.tree with
  | edu s =>
    rw [hqt] at h
    simp only at h
    exact DG.underscore_decimal q.first (by rw [← h]; simp)
  | rel n ks =>
    rw [hqt] at h
    simp only at h
    rw [List.append_assoc, List.append_assoc, List.append_assoc] at h
    exact spanName_ne h

end DisPart

namespace Rst

theorem docNode_eq {t : Rst} (ht : ∀ s, t ≠ .edu s) (ns : String) : t.docNode ns = t.whole.node ns := by
  cases t with
  | edu s => exact absurd rfl (ht s)
  | rel name kids =>
    unfold docNode DisPart.node DisPart.name whole DisPart.last
    simp only
    have h1 : decimal 1 = ['1'] := by decide +kernel
    rw [h1, show 1 + (Rst.rel name kids).edus.length - 1 = (Rst.rel name kids).edus.length by omega]
    rfl

theorem docNode_ne {t : Rst} (ht : ∀ s, t ≠ .edu s) (hw : t.WellFormed) {ns : String} {p : DisPart} (hp : p ∈ t.visited) (h : p.node ns = t.docNode ns) : False := by
  rw [docNode_eq ht] at h
  obtain ⟨h1, h2⟩ := visited_mem hw hp
  have := (DisPart.node_inj (hw.part h1) (q := t.whole) hw h).2
  have : t.whole.len = t.edus.length := rfl
  omega

/-- a visited part is determined by its node -/
theorem visited_unique {t : Rst} (hw : t.WellFormed) {ns : String} {p q : DisPart} (hp : p ∈ t.visited) (hq : q ∈ t.visited) (h : p.node ns = q.node ns) : p = q := by
  by_contra hne
  have : Std.Symm DisPart.Differ := ⟨fun a b h => h.imp Ne.symm Ne.symm⟩
  have hd := (visited_pairwise hw).forall hp hq hne
  have := DisPart.node_inj (hw.part (visited_mem hw hp).1) (hw.part (visited_mem hw hq).1) h
  rcases hd with hd | hd
  · exact hd this.1
  · exact hd this.2

theorem token_unique {t : Rst} (hw : t.WellFormed) {ns : String} {p q : DisPart} {i j : Nat} {s s' : List Char} (hp : p ∈ t.visited) (hq : q ∈ t.visited) (hps : p.tree = .edu s) (hqs : q.tree = .edu s') (h : p.tokenNode ns i = q.tokenNode ns j) : p = q ∧ i = j := by
  obtain ⟨h1, h2⟩ := DisPart.token_inj h
  refine ⟨visited_unique hw (ns := ns) hp hq ?_, h2⟩
  simp [DisPart.node, DisPart.name, hps, hqs, h1]

end Rst

namespace DG

/-- the calls for a document -/
def disCalls (ns : String) (tokenize : Bool) (t : Rst) : List Instr :=
  t.docParts.flatMap (fun c => .edge (t.docNode ns) (c.node ns) [ns] [("edge_type", .atom (.str "dominates"))] :: c.visited.flatMap (DisPart.calls ns tokenize))

/-- the graph with only the root node -/
def disRootGraph (name ns : String) (t : Rst) : DG := ⟨name, ns, t.docNode ns, [(t.docNode ns, [("layers", .set [.str ns])])], [(t.docNode ns, [])], [], [], none, none⟩

theorem disRootGraph_kd (name ns : String) (t : Rst) (u v : NodeId) : (disRootGraph name ns t).kd? u v = none := by
  unfold kd? disRootGraph
  simp only [find]
  split <;> rfl

theorem disRootGraph_attrs (name ns : String) (t : Rst) (n : NodeId) : find (disRootGraph name ns t).nodes n = if t.docNode ns = n then some [("layers", .set [.str ns])] else none := by
  unfold disRootGraph
  simp only [find]

theorem disRootGraph_state (name ns : String) (t : Rst) : DisState ns (disRootGraph name ns t) := by
  refine ⟨⟨⟨by simp [disRootGraph, keys], rfl, ?_, ?_, ?_, ?_⟩, ?_, ?_⟩, ?_, rfl⟩
  · intro u nb h
    simp only [disRootGraph, find] at h
    split at h
    · obtain rfl := Option.some.inj h
      simp [keys]
    · cases h
  · intro u v kd h; rw [disRootGraph_kd] at h; cases h
  · intro u v kd h; rw [disRootGraph_kd] at h; cases h
  · intro u v kd h; rw [disRootGraph_kd] at h; cases h
  · refine ⟨?_, ?_⟩
    · intro n a h
      rw [show (disRootGraph name ns t).nodeAttrs n = find (disRootGraph name ns t).nodes n from rfl, disRootGraph_attrs] at h
      split at h
      · obtain rfl := Option.some.inj h
        simp [keys]
      · cases h
    · intro u v k a h
      unfold edgeAttrs at h
      rw [disRootGraph_kd] at h
      cases h
  · intro u v k a h
    unfold edgeAttrs at h
    rw [disRootGraph_kd] at h
    cases h
  · intro n a h
    rw [show (disRootGraph name ns t).nodeAttrs n = find (disRootGraph name ns t).nodes n from rfl, disRootGraph_attrs] at h
    split at h
    · obtain rfl := Option.some.inj h
      exact ⟨_, rfl, by simp, by simp⟩
    · cases h

theorem disStart_root (name ns : String) (t : Rst) : (disStart name ns >>= disSetRoot (qual ns (String.ofList (['s', 'p', 'a', 'n', ':', '1', '-'] ++ decimal t.edus.length)))) = .ok (disRootGraph name ns t) := rfl

theorem disCalls_ok (ns : String) (tokenize : Bool) (t : Rst) : ∀ i ∈ disCalls ns tokenize t, i.Ok (fun _ => False) := by
  intro i hi
  obtain ⟨c, _, hi⟩ := List.mem_flatMap.1 hi
  rcases List.mem_cons.1 hi with rfl | hi
  · exact ⟨by simp, by simp [keys]⟩
  · exact calls_all_ok ns tokenize _ i hi

/-- the children of the root -/
theorem parseDisRoot_eq {ns : String} (tokenize : Bool) (rid : String) (ps : List DisPart) (hw : ∀ p ∈ ps, p.tree.WellFormed) (hm : ∀ p ∈ ps, p.tree.NoMarks) :
    ∀ g : DG, DisState ns g → parseDisRoot tokenize rid 0 (ps.map DisPart.ptree) g = if ∃ q ∈ ps.flatMap DisPart.visited, q.Conflict then .error .notImplemented else
      execs g (ps.flatMap (fun c => .edge (.str rid) (c.node ns) [ns] [("edge_type", .atom (.str "dominates"))] :: c.visited.flatMap (DisPart.calls ns tokenize))) := by
  induction ps with
  | nil =>
    intro g h
    rw [if_neg (by simp)]
    simp [parseDisRoot, execs_nil]
  | cons p ps ihp =>
    intro g h
    rw [List.map_cons, parseDisRoot, h.ns, disNodeId_ptree ns (hw p (by simp))]
    simp only [except_bind_ok]
    rw [addEdge_default, h.ns]
    obtain ⟨g0, e0, s0, _⟩ := execs_state h (s := [.edge (.str rid) (p.node ns) [ns] [("edge_type", .atom (.str "dominates"))]]) (by
      intro i hi
      rw [List.mem_singleton.1 hi]
      exact ⟨by simp, by simp [keys]⟩)
    rw [execs_one] at e0
    rw [show (Instr.edge (NodeId.str rid) (NodeId.str (qual ns (String.ofList p.name))) [ns] [("edge_type", Val.atom (Atom.str dominanceRelation))]) = .edge (.str rid) (p.node ns) [ns] [("edge_type", .atom (.str "dominates"))] from rfl, e0]
    simp only [except_bind_ok]
    rw [parseDisTree_eq tokenize p.tree p rfl (hw p (by simp)) (hm p (by simp)) g0 s0]
    by_cases hc : ∃ q ∈ p.visited, q.Conflict
    · rw [if_pos hc, if_pos (by obtain ⟨q, hq, hc⟩ := hc; exact ⟨q, by simp [hq], hc⟩)]
      rfl
    · rw [if_neg hc]
      obtain ⟨g1, e1, s1, _⟩ := execs_state s0 (calls_all_ok ns tokenize p.visited)
      rw [e1]
      simp only [except_bind_ok]
      rw [ihp (fun p hp => hw p (by simp [hp])) (fun p hp => hm p (by simp [hp])) g1 s1]
      have : (∃ q ∈ (p :: ps).flatMap DisPart.visited, q.Conflict) ↔ ∃ q ∈ ps.flatMap DisPart.visited, q.Conflict := by
        rw [List.flatMap_cons]
        constructor
        · rintro ⟨q, hq, hq'⟩
          rcases List.mem_append.1 hq with hq | hq
          · exact absurd ⟨q, hq, hq'⟩ hc
          · exact ⟨q, hq, hq'⟩
        · rintro ⟨q, hq, hq'⟩
          exact ⟨q, List.mem_append_right _ hq, hq'⟩
      by_cases hd : ∃ q ∈ ps.flatMap DisPart.visited, q.Conflict
      · rw [if_pos hd, if_pos (this.2 hd)]
      · rw [if_neg hd, if_neg (fun hx => hd (this.1 hx)), List.flatMap_cons, List.cons_append, execs_cons, e0]
        simp only [except_bind_ok]
        rw [execs_append, e1]
        rfl

/-- reading a document without precedence edges -/
theorem disRead_plain (name ns : String) (tokenize : Bool) {t : Rst} (hw : t.WellFormed) (hm : t.NoMarks) (ht : ∀ s, t ≠ .edu s) :
    (disStart name ns >>= parseDisTree tokenize t.disDoc) = if ∃ q ∈ t.visited, q.Conflict then .error .notImplemented else execs (disRootGraph name ns t) (disCalls ns tokenize t) := by
  cases t with
  | edu s => exact absurd rfl (ht s)
  | rel rname kids =>
    have hparts : disBelow 1 (.rel rname kids) = (Rst.rel rname kids).docParts.map DisPart.ptree := by
      rw [disBelow, Rst.disParts_eq]; rfl
    have hw' : ∀ c ∈ (Rst.rel rname kids).docParts, c.tree.WellFormed := fun c hc => hw.part (DisPart.part (p := Rst.whole (.rel rname kids)) (by rw [← Rst.docParts_eq]; exact hc))
    have hm' : ∀ c ∈ (Rst.rel rname kids).docParts, c.tree.NoMarks := fun c hc => hm.part (DisPart.part (p := Rst.whole (.rel rname kids)) (by rw [← Rst.docParts_eq]; exact hc))
    have hs := disStart_root name ns (.rel rname kids)
    cases hg : disStart name ns with
    | error e => rw [hg] at hs; cases hs
    | ok g0 =>
      rw [hg] at hs
      simp only [except_bind_ok] at hs ⊢
      have hns : g0.ns = ns := by
        have : disStart name ns = .ok ⟨name, ns, .int 0, [(.int 0, [("label", .atom (.str (qual ns "root_node"))), ("layers", .set [.str ns])])], [(.int 0, [])], [], [], none, none⟩ := rfl
        rw [this] at hg
        obtain rfl := Except.ok.inj hg
        rfl
      unfold Rst.disDoc
      rw [parseDisTree]
      have hty : disTreeType (.node ['R', 'o', 'o', 't'] []) = .ok .root := rfl
      rw [hty]
      simp only [except_bind_ok]
      have hn : ∀ rest, disNodeName (.node ['s', 'p', 'a', 'n'] [.leaf ['1'], .leaf (decimal (Rst.rel rname kids).edus.length)] :: rest) = .ok (['s', 'p', 'a', 'n', ':', '1', '-'] ++ decimal (Rst.rel rname kids).edus.length) := by
        intro rest
        rfl
      rw [hn]
      simp only [except_bind_ok, if_true, hns]
      rw [hs]
      simp only [except_bind_ok]
      rw [parseDisRoot, hparts, parseDisRoot_eq tokenize _ _ hw' hm' _ (disRootGraph_state name ns _)]
      rfl

/-- the calls of add_precedence_relations -/
theorem precedence_execs {ns : String} {g : DG} (h : DisState ns g) (h2 : 2 ≤ g.tokens.length) : ∃ g', batch g.addPrecedenceRelations = .ok g' ∧ execs g (edgeCalls (precEdges ns g.root g.tokens)) = .ok g' := by
  have hedge : ∀ (g : DG) (u v : NodeId), g.ns = ns → g.addPrecedenceEdge u v = (Instr.edge u v [ns, qual ns "precedence"] [("edge_type", .atom (.str "precedes"))]).exec g := by
    rintro g u v rfl
    rfl
  have hloop : ∀ (ts : List NodeId) (a : NodeId) (g : DG), DisState ns g → ∃ g', g.addPrecedenceLoop (a :: ts) = (g', none) ∧ execs g (edgeCalls (precEdges ns a ts)) = .ok g' := by
    intro ts
    induction ts with
    | nil => intro a g _; exact ⟨g, rfl, rfl⟩
    | cons b ts ih =>
      intro a g h
      obtain ⟨g1, e1, s1, _⟩ := execs_state h (s := [.edge a b [ns, qual ns "precedence"] [("edge_type", .atom (.str "precedes"))]]) (by
        intro i hi
        rw [List.mem_singleton.1 hi]
        exact ⟨by simp, by simp [keys]⟩)
      rw [execs_one] at e1
      obtain ⟨g2, e2, e3⟩ := ih b g1 s1
      refine ⟨g2, ?_, ?_⟩
      · rw [addPrecedenceLoop, hedge g a b h.ns, e1]
        exact e2
      · show execs g (Instr.edge a b [ns, qual ns "precedence"] [("edge_type", .atom (.str "precedes"))] :: edgeCalls (precEdges ns b ts)) = _
        rw [execs_cons, e1]
        exact e3
  match hts : g.tokens, h2 with
  | t0 :: t1 :: rest, _ =>
    obtain ⟨g1, e1, s1, _⟩ := execs_state h (s := [.edge g.root t0 [ns, qual ns "precedence"] [("edge_type", .atom (.str "precedes"))]]) (by
      intro i hi
      rw [List.mem_singleton.1 hi]
      exact ⟨by simp, by simp [keys]⟩)
    rw [execs_one] at e1
    obtain ⟨g2, e2, e3⟩ := hloop (t1 :: rest) t0 g1 s1
    refine ⟨g2, ?_, ?_⟩
    · unfold addPrecedenceRelations
      rw [hts]
      simp only
      rw [hedge g _ _ h.ns, e1]
      simp only
      rw [e2]
      rfl
    · show execs g (Instr.edge g.root t0 [ns, qual ns "precedence"] [("edge_type", .atom (.str "precedes"))] :: edgeCalls (precEdges ns t0 (t1 :: rest))) = _
      rw [execs_cons, e1]
      exact e3

end DG
end Dg
