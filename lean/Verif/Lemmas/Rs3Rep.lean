import Verif.Props.C32
import Verif.Props.C37

/-! How the data read from a written .rs3 file represent the structure. -/

namespace Dg
open Rst Rs3Writer Rs3Data
open DG (mapE mapE_ok mapE_total)

namespace Rst

mutual
/-- number of EDUs and relations -/
def size : Rst → Nat
  | .edu _ => 1
  | .rel _ kids => 1 + sizeAll kids
/-- number of EDUs and relations of parts -/
def sizeAll : List (Nuc × Rst) → Nat
  | [] => 0
  | (_, t) :: r => size t + sizeAll r
end

/-- the numbers of the parts -/
def heads (m : Nat) : List (Nuc × Rst) → List (Nuc × Nat)
  | [] => []
  | (k, t) :: r => (k, m + 1) :: heads (m + 1 + t.nodes) r

end Rst

/-- reltype and nuclearity of an element with this relation to its parent -/
def upType (isRst : List Char → Bool) : Option (List Char × Nat) → Option RelType × Nuclearity
  | none => (none, .root)
  | some (name, _) =>
    if name = ['s', 'p', 'a', 'n'] then (some .span, .nucleus)
    else if isRst name then (some .rst, .satellite)
    else (some .multinuc, .nucleus)

/-- the entry of an element -/
def repEntry (isRst : List Char → Bool) (up : Option (List Char × Nat)) (kind : List Char ⊕ Option (List Char)) : Rs3Elem :=
  ⟨up.map (fun u => decimal u.2), up.map Prod.fst, (upType isRst up).1, (upType isRst up).2, kind⟩

/-- the numbers of those parts that are attached to the element with number `q` -/
def attached (rst : Bool) (name : List Char) (n nuc : Nat) (hs : List (Nuc × Nat)) (q : Nat) : List Nat :=
  (hs.filter (fun h => decide ((rs3Up rst name n nuc h.1).2 = q))).map Prod.snd

mutual
/-- `Rep d isRst n up exts a t`: the data represent the structure `t` with the number `n`, its parent is `up`, there are additional elements `exts` attached to it, and its first EDU is
EDU number `a` -/
def Rep (d : Rs3Data) (isRst : List Char → Bool) (n : Nat) (up : Option (List Char × Nat)) (exts : List Nat) (a : Nat) : Rst → Prop
  | .edu s => Dict.find d.elems (decimal n) = some (repEntry isRst up (.inl s)) ∧ (d.kids (some (decimal n))).Perm (exts.map decimal) ∧
      d.edus[a]? = some (decimal n) ∧ (Dict.has d.children (some (decimal n)) = true ↔ exts ≠ [])
  | .rel name kids =>
    Dict.find d.elems (decimal n) = some (repEntry isRst up (.inr (some (if .S ∈ kids.map Prod.fst then ['s', 'p', 'a', 'n'] else ['m', 'u', 'l', 't', 'i', 'n', 'u', 'c'])))) ∧
    (d.kids (some (decimal n))).Perm ((attached (isRst name) name n (nucNumber (n + 1) kids) (heads (n + 1) kids) n ++ exts).map decimal) ∧
    decimal n ∉ d.edus ∧ RepAll d isRst name n (nucNumber (n + 1) kids) (heads (n + 1) kids) (n + 1) a kids
/-- the data represent the parts of a relation -/
def RepAll (d : Rs3Data) (isRst : List Char → Bool) (name : List Char) (n nuc : Nat) (hs : List (Nuc × Nat)) (m a : Nat) : List (Nuc × Rst) → Prop
  | [] => True
  | (k, t) :: r =>
    Rep d isRst (m + 1) (some (rs3Up (isRst name) name n nuc k)) (attached (isRst name) name n nuc hs (m + 1)) a t ∧
    RepAll d isRst name n nuc hs (m + 1 + t.nodes) (a + t.edus.length) r
end

/-! ### The written file represents the structure -/

theorem rs3Elems_parents_in {isRst : List Char → Bool} {T : Rst} (h : ∀ name kids, Part (.rel name kids) T → ∃ k ∈ kids, k.1 = .N) (n : Nat) (up : Option (List Char × Nat)) :
    ∃ x xs, T.rs3Elems isRst n up = x :: xs ∧ x.id = decimal n ∧ x.parent = up.map (fun u => decimal u.2) ∧ x.relname = up.map Prod.fst ∧
      ∀ y ∈ xs, ∃ p, y.parent = some (decimal p) ∧ n ≤ p ∧ p < n + T.nodes := by
  obtain ⟨x, xs, h1, h2, h3, h4, h5⟩ := rs3Elems_parents (isRst := isRst) T h n up
  refine ⟨x, xs, h1, h2, h3, h4, ?_⟩
  intro y hy
  obtain ⟨i, hi, _, hm⟩ := h5 y hy
  obtain ⟨ms, e, _, hb, _⟩ := rs3Elems_ids isRst T n up
  rw [e] at hm
  obtain ⟨p, hp, rfl⟩ := List.mem_map.1 hm
  exact ⟨p, hi, hb p hp⟩

/-- the parts attached to an element outside -/
theorem rs3Parts_filter {isRst : List Char → Bool} {name : List Char} {n nuc q : Nat} (ks : List (Nuc × Rst)) :
    (∀ k ∈ ks, ∀ name kids, Part (.rel name kids) k.2 → ∃ k ∈ kids, k.1 = .N) → ∀ m, q ≤ m ∨ m + nodesAll ks ≤ q →
    ((rs3Parts isRst name n nuc m ks).filter (fun x => decide (x.parent = some (decimal q)))).map Rs3Xml.id =
      (attached (isRst name) name n nuc (heads m ks) q).map decimal := by
  induction ks with
  | nil => intro _ m _; rfl
  | cons k ks ih =>
    obtain ⟨k, t⟩ := k
    intro hN m hq
    rw [nodesAll] at hq
    have ih := ih (fun k hk => hN k (List.mem_cons_of_mem _ hk)) (m + 1 + t.nodes) (by omega)
    rw [rs3Parts, List.filter_append, List.map_append, ih]
    obtain ⟨x, xs, h1, h2, h3, _, h5⟩ := rs3Elems_parents_in (isRst := isRst) (hN (k, t) (by simp)) (m + 1) (some (rs3Up (isRst name) name n nuc k))
    dsimp only at h1 h5
    have hxs : xs.filter (fun x => decide (x.parent = some (decimal q))) = [] := by
      rw [List.filter_eq_nil_iff]
      intro y hy
      obtain ⟨p, hp, h6, h7⟩ := h5 y hy
      rw [hp]
      simp only [Option.some.injEq, decide_eq_true_eq]
      intro e
      have := decimal_injective e
      omega
    rw [h1]
    unfold attached
    rw [heads]
    by_cases hc : (rs3Up (isRst name) name n nuc k).2 = q
    · rw [List.filter_cons_of_pos (by rw [h3]; simp [hc]), hxs, List.filter_cons_of_pos (by simpa using hc)]
      simp [h2]
    · rw [List.filter_cons_of_neg (by rw [h3]; simp only [Option.map_some, Option.some.injEq, decide_eq_true_eq]; exact fun e => hc (decimal_injective e)), hxs,
        List.filter_cons_of_neg (by simpa using hc)]
      simp

theorem heads_append (m : Nat) (xs ys : List (Nuc × Rst)) : heads m (xs ++ ys) = heads m xs ++ heads (m + nodesAll xs) ys := by
  induction xs generalizing m with
  | nil => rfl
  | cons x xs ih =>
    obtain ⟨k, t⟩ := x
    rw [List.cons_append, heads, heads, List.cons_append, ih, nodesAll]
    congr 3
    omega

theorem heads_bounds {m : Nat} {ks : List (Nuc × Rst)} {h : Nuc × Nat} (hh : h ∈ heads m ks) : m < h.2 ∧ h.2 < m + 1 + nodesAll ks := by
  induction ks generalizing m with
  | nil => simp [heads] at hh
  | cons k ks ih =>
    obtain ⟨k, t⟩ := k
    rw [nodesAll]
    rcases List.mem_cons.1 hh with rfl | hh
    · constructor
      · show m < m + 1
        omega
      · show m + 1 < _
        omega
    · have := ih hh; omega

theorem heads_nuc {ks : List (Nuc × Rst)} (m : Nat) (h : ∃ k ∈ ks, k.1 = .N) : (Nuc.N, nucNumber m ks) ∈ heads m ks := by
  induction ks generalizing m with
  | nil => simp at h
  | cons k ks ih =>
    obtain ⟨k, t⟩ := k
    cases k with
    | N => rw [nucNumber, heads]; exact List.mem_cons_self
    | S =>
      rw [nucNumber, heads]
      exact List.mem_cons_of_mem _ (ih _ (by simpa using h))

theorem nodes_pos (t : Rst) : 1 ≤ t.nodes := by
  cases t with
  | edu s => exact Nat.le_refl _
  | rel a ks => rw [nodes]; omega

/-- parts with numbers in a relation have different numbers -/
theorem heads_unique {ks : List (Nuc × Rst)} (m : Nat) {k k' : Nuc} {q : Nat} (h : (k, q) ∈ heads m ks) (h' : (k', q) ∈ heads m ks) : k = k' := by
  induction ks generalizing m with
  | nil => simp [heads] at h
  | cons x ks ih =>
    obtain ⟨x, t⟩ := x
    rw [heads] at h h'
    have hp := nodes_pos t
    rcases List.mem_cons.1 h with e | h
    · rcases List.mem_cons.1 h' with e' | h'
      · cases e; cases e'; rfl
      · have := heads_bounds h'; cases e; dsimp only at this; omega
    · rcases List.mem_cons.1 h' with e' | h'
      · have := heads_bounds h; cases e'; dsimp only at this; omega
      · exact ih _ h h'

theorem rs3Parts_append {isRst : List Char → Bool} {name : List Char} {n nuc : Nat} (xs ys : List (Nuc × Rst)) (m : Nat) :
    rs3Parts isRst name n nuc m (xs ++ ys) = rs3Parts isRst name n nuc m xs ++ rs3Parts isRst name n nuc (m + nodesAll xs) ys := by
  induction xs generalizing m with
  | nil => rfl
  | cons x xs ih =>
    obtain ⟨k, t⟩ := x
    rw [List.cons_append, rs3Parts, rs3Parts, ih, nodesAll, List.append_assoc]
    congr 3
    omega

theorem edus_segments (isRst : List Char → Bool) (T : Rst) (n : Nat) (up : Option (List Char × Nat)) : ((T.rs3Elems isRst n up).filter Rs3Xml.isSeg).length = T.edus.length := by
  rw [← rs3Elems_texts isRst T n up]
  generalize T.rs3Elems isRst n up = xs
  induction xs with
  | nil => rfl
  | cons x xs ih =>
    obtain ⟨i, p, r, kind⟩ := x
    cases kind with
    | segment s =>
      rw [List.filter_cons_of_pos (by rfl), List.length_cons, ih]
      cases s <;> rfl
    | group g =>
      rw [List.filter_cons_of_neg (by simp [Rs3Xml.isSeg]), ih]
      rfl

/-- what the file with these elements (in preorder) contains -/
structure Holds (d : Rs3Data) (isRst : List Char → Bool) (all : List Rs3Xml) : Prop where
  nodup : (all.map Rs3Xml.id).Nodup
  edus : d.edus = (all.filter Rs3Xml.isSeg).map Rs3Xml.id
  kids : ∀ i, (d.kids i).Perm ((all.filter (fun x => decide (x.parent = i))).map Rs3Xml.id)
  has : ∀ i, Dict.has d.children i = true ↔ ∃ x ∈ all, x.parent = i
  find : ∀ i up kind, (⟨i, up.map (fun u => decimal u.2), up.map Prod.fst, kind⟩ : Rs3Xml) ∈ all → Dict.find d.elems i =
    some (repEntry isRst up (match kind with | .segment s => .inl (s.getD []) | .group ty => .inr ty))

theorem rep_of {d : Rs3Data} {isRst : List Char → Bool} {all : List Rs3Xml} (hd : Holds d isRst all) (T : Rst) :
    (∀ name kids, Part (.rel name kids) T → ∃ k ∈ kids, k.1 = .N) →
    ∀ (n : Nat) (up : Option (List Char × Nat)) (exts : List Nat) (A B : List Rs3Xml), all = A ++ T.rs3Elems isRst n up ++ B →
      ((A ++ B).filter (fun x => decide (x.parent = some (decimal n)))).map Rs3Xml.id = exts.map decimal →
      (∀ x ∈ A ++ B, ∀ p, x.parent = some (decimal p) → ¬ (n < p ∧ p < n + T.nodes)) →
      (∀ u, up = some u → u.2 < n ∨ n + T.nodes ≤ u.2) → Rep d isRst n up exts (A.filter Rs3Xml.isSeg).length T := by
  induction T using Rst.ind with
  | h1 s =>
    intro _ n up exts A B hall hext hout hup
    have hperm : (d.kids (some (decimal n))).Perm (exts.map decimal) := by
      refine (hd.kids _).trans ?_
      rw [← hext, hall, List.filter_append, List.filter_append, rs3Elems, List.filter_cons_of_neg, List.filter_append]
      · simp
      · cases up with
        | none => simp
        | some u =>
          have := hup u rfl
          rw [nodes] at this
          simp only [Option.map_some, Option.some.injEq, decide_eq_true_eq]
          intro e
          have := decimal_injective e
          omega
    refine ⟨?_, hperm, ?_, ?_⟩
    · have := hd.find (decimal n) up (.segment (if s = [] then none else some s)) (by rw [hall, rs3Elems]; simp)
      rw [this]
      dsimp only
      by_cases hs : s = []
      · rw [if_pos hs, hs]; rfl
      · rw [if_neg hs]; rfl
    · rw [hd.edus, hall, rs3Elems, List.filter_append, List.filter_append, List.map_append, List.map_append, List.append_assoc,
        List.getElem?_append_right (by rw [List.length_map]; exact Nat.le_refl _), List.length_map, Nat.sub_self, List.filter_cons_of_pos (by rfl)]
      rfl
    · rw [hd.has]
      constructor
      · rintro ⟨x, hx, hp⟩ he
        have : x.id ∈ d.kids (some (decimal n)) := (hd.kids _).mem_iff.2 (List.mem_map_of_mem (List.mem_filter.2 ⟨hx, by simpa using hp⟩))
        rw [he] at hperm
        rw [hperm.mem_iff] at this
        simp at this
      · intro hne
        cases exts with
        | nil => exact absurd rfl hne
        | cons e es =>
          have : decimal e ∈ d.kids (some (decimal n)) := hperm.mem_iff.2 (by simp)
          rw [(hd.kids _).mem_iff] at this
          obtain ⟨x, hx, _⟩ := List.mem_map.1 this
          obtain ⟨h1, h2⟩ := List.mem_filter.1 hx
          exact ⟨x, h1, by simpa using h2⟩
  | h2 name kids ih =>
    intro hN n up exts A B hall hext hout hup
    have hNk : ∀ k ∈ kids, ∀ name kids, Part (.rel name kids) k.2 → ∃ k ∈ kids, k.1 = .N := fun k hk a b hp => hN a b (.kid (by exact hk) hp)
    have hnucN := hN name kids (.refl _)
    have hnuc := heads_nuc (n + 1) hnucN
    have hnucb := heads_bounds hnuc
    rw [rs3Elems] at hall
    rw [nodes] at hout hup
    have hhead : ∀ q, n ≤ q → q < n + (1 + nodesAll kids) → ¬ (up.map (fun u => decimal u.2) = some (decimal q)) := by
      intro q h1 h2
      cases up with
      | none => simp
      | some u =>
        have := hup u rfl
        simp only [Option.map_some, Option.some.injEq]
        intro e
        have := decimal_injective e
        omega
    rw [Rep]
    refine ⟨?_, ?_, ?_, ?_⟩
    · exact hd.find (decimal n) up (.group _) (by rw [hall]; simp)
    · refine (hd.kids _).trans ?_
      rw [hall, List.filter_append, List.filter_append, List.filter_cons_of_neg (by simpa using hhead n (by omega) (by omega)), List.map_append, List.map_append,
        rs3Parts_filter kids hNk (n + 1) (.inl (by omega)), List.map_append]
      rw [List.filter_append, List.map_append] at hext
      rw [← hext]
      refine ((List.perm_append_comm).append_right _).trans ?_
      rw [List.append_assoc]
    · rw [hd.edus]
      intro hm
      obtain ⟨x, hx, e⟩ := List.mem_map.1 hm
      obtain ⟨hx1, hx2⟩ := List.mem_filter.1 hx
      have hnd := hd.nodup
      have hgr := List.inj_on_of_nodup_map hnd hx1 (y := ⟨decimal n, up.map (fun u => decimal u.2), up.map Prod.fst,
        .group (some (if .S ∈ kids.map Prod.fst then ['s', 'p', 'a', 'n'] else ['m', 'u', 'l', 't', 'i', 'n', 'u', 'c']))⟩) (by rw [hall]; simp) e
      rw [hgr] at hx2
      simp [Rs3Xml.isSeg] at hx2
    · have key : ∀ (suf pre : List (Nuc × Rst)), kids = pre ++ suf →
          RepAll d isRst name n (nucNumber (n + 1) kids) (heads (n + 1) kids) (n + 1 + nodesAll pre) ((A.filter Rs3Xml.isSeg).length + (edusAll pre).length) suf := by
        intro suf
        induction suf with
        | nil => intro pre _; rw [RepAll]; trivial
        | cons k suf ih2 =>
          obtain ⟨k, t⟩ := k
          intro pre hk
          have hmem : (k, t) ∈ kids := by rw [hk]; simp
          have hpos := nodes_pos t
          have hnodes : nodesAll kids = nodesAll pre + (1 + t.nodes + nodesAll suf) := by
            have : ∀ xs ys : List (Nuc × Rst), nodesAll (xs ++ ys) = nodesAll xs + nodesAll ys := by
              intro xs ys
              induction xs with
              | nil => simp [nodesAll]
              | cons x xs ih => obtain ⟨a, b⟩ := x; rw [List.cons_append, nodesAll, nodesAll, ih]; omega
            rw [hk, this, nodesAll]
          have hheads : heads (n + 1) kids = heads (n + 1) pre ++ (k, n + 1 + nodesAll pre + 1) :: heads (n + 1 + nodesAll pre + 1 + t.nodes) suf := by
            rw [hk, heads_append, heads]
          have hself : (rs3Up (isRst name) name n (nucNumber (n + 1) kids) k).2 ≠ n + 1 + nodesAll pre + 1 := by
            intro e
            unfold rs3Up at e
            split at e
            · cases k with
              | N => dsimp only at e; omega
              | S =>
                dsimp only at e
                rw [e] at hnuc
                have hS : (Nuc.S, n + 1 + nodesAll pre + 1) ∈ heads (n + 1) kids := by rw [hheads]; simp
                have := heads_unique _ hnuc hS
                cases this
            · dsimp only at e; omega
          rw [RepAll]
          constructor
          · have hA : ((A ++ (⟨decimal n, up.map (fun u => decimal u.2), up.map Prod.fst,
                .group (some (if .S ∈ kids.map Prod.fst then ['s', 'p', 'a', 'n'] else ['m', 'u', 'l', 't', 'i', 'n', 'u', 'c']))⟩ : Rs3Xml) ::
                rs3Parts isRst name n (nucNumber (n + 1) kids) (n + 1) pre).filter Rs3Xml.isSeg).length = (A.filter Rs3Xml.isSeg).length + (edusAll pre).length := by
              rw [List.filter_append, List.length_append, List.filter_cons_of_neg (by simp [Rs3Xml.isSeg])]
              congr 1
              have : ∀ (ks : List (Nuc × Rst)) (m : Nat), ((rs3Parts isRst name n (nucNumber (n + 1) kids) m ks).filter Rs3Xml.isSeg).length = (edusAll ks).length := by
                intro ks
                induction ks with
                | nil => intro m; rfl
                | cons k ks ih3 =>
                  obtain ⟨k, t⟩ := k
                  intro m
                  rw [rs3Parts, List.filter_append, List.length_append, edus_segments, ih3, edusAll, List.length_append]
              exact this _ _
            rw [← hA]
            refine ih (k, t) hmem (hNk _ hmem) _ _ _ _ (rs3Parts isRst name n (nucNumber (n + 1) kids) (n + 1 + nodesAll pre + 1 + t.nodes) suf ++ B) ?_ ?_ ?_ ?_
            · rw [hall]
              conv => lhs; rw [show rs3Parts isRst name n (nucNumber (n + 1) kids) (n + 1) kids =
                rs3Parts isRst name n (nucNumber (n + 1) kids) (n + 1) pre ++ (rs3Elems isRst (n + 1 + nodesAll pre + 1) (some (rs3Up (isRst name) name n (nucNumber (n + 1) kids) k)) t ++
                  rs3Parts isRst name n (nucNumber (n + 1) kids) (n + 1 + nodesAll pre + 1 + t.nodes) suf) by
                conv => lhs; arg 6; rw [hk]
                rw [rs3Parts_append, rs3Parts]]
              simp
            · have hno : ∀ x ∈ A ++ B, ¬ (x.parent = some (decimal (n + 1 + nodesAll pre + 1))) := by
                intro x hx e
                exact hout x hx _ e (by omega)
              have hA0 : A.filter (fun x => decide (x.parent = some (decimal (n + 1 + nodesAll pre + 1)))) = [] := by
                rw [List.filter_eq_nil_iff]; intro x hx; simpa using hno x (List.mem_append_left _ hx)
              have hB0 : B.filter (fun x => decide (x.parent = some (decimal (n + 1 + nodesAll pre + 1)))) = [] := by
                rw [List.filter_eq_nil_iff]; intro x hx; simpa using hno x (List.mem_append_right _ hx)
              rw [List.filter_append, List.filter_append, List.filter_append, hA0, hB0, List.filter_cons_of_neg (by
                simpa using hhead (n + 1 + nodesAll pre + 1) (by omega) (by omega)), List.nil_append, List.append_nil, List.map_append,
                rs3Parts_filter pre (fun k hk' => hNk k (by rw [hk]; exact List.mem_append_left _ hk')) (n + 1) (.inr (by omega)),
                rs3Parts_filter suf (fun k hk' => hNk k (by rw [hk]; exact List.mem_append_right _ (List.mem_cons_of_mem _ hk'))) _ (.inl (by omega)), ← List.map_append]
              congr 1
              unfold attached
              rw [hheads, List.filter_append, List.filter_cons_of_neg (by simpa using hself), List.map_append]
            · intro x hx p hp hb
              dsimp only at hb
              simp only [List.append_assoc, List.cons_append, List.mem_append, List.mem_cons] at hx
              have hparts : ∀ (ks : List (Nuc × Rst)) (m : Nat), (∀ k ∈ ks, k ∈ kids) → x ∈ rs3Parts isRst name n (nucNumber (n + 1) kids) m ks →
                  p = n ∨ p = nucNumber (n + 1) kids ∨ (m < p ∧ p < m + nodesAll ks) := by
                intro ks
                induction ks with
                | nil => intro m _ hx; simp [rs3Parts] at hx
                | cons k' ks ih3 =>
                  obtain ⟨k', t'⟩ := k'
                  intro m hsub hx
                  rw [rs3Parts, List.mem_append] at hx
                  rw [nodesAll]
                  rcases hx with hx | hx
                  · obtain ⟨y, ys, h1, h2, h3, _, h5⟩ := rs3Elems_parents_in (isRst := isRst) (hNk (k', t') (hsub _ (by simp))) (m + 1)
                      (some (rs3Up (isRst name) name n (nucNumber (n + 1) kids) k'))
                    dsimp only at h1 h5
                    rw [h1] at hx
                    rcases List.mem_cons.1 hx with rfl | hx
                    · rw [h3] at hp
                      simp only [Option.map_some, Option.some.injEq] at hp
                      have := decimal_injective hp
                      unfold rs3Up at this
                      split at this
                      · cases k'
                        · exact .inl this.symm
                        · exact .inr (.inl this.symm)
                      · exact .inl this.symm
                    · obtain ⟨p', hp', h6, h7⟩ := h5 x hx
                      rw [hp'] at hp
                      have := decimal_injective (Option.some.inj hp)
                      subst this
                      exact .inr (.inr (by omega))
                  · rcases ih3 _ (fun k hk => hsub k (List.mem_cons_of_mem _ hk)) hx with h | h | h
                    · exact .inl h
                    · exact .inr (.inl h)
                    · exact .inr (.inr (by omega))
              have hnucne : ¬ (n + 1 + nodesAll pre + 1 < nucNumber (n + 1) kids ∧ nucNumber (n + 1) kids < n + 1 + nodesAll pre + 1 + t.nodes) := by
                rintro ⟨h1, h2⟩
                rw [hheads, List.mem_append, List.mem_cons] at hnuc
                rcases hnuc with h | h | h
                · have := heads_bounds h; dsimp only at this; omega
                · have := congrArg Prod.snd h; dsimp only at this; omega
                · have := heads_bounds h; dsimp only at this; omega
              rcases hx with hx | hx | hx | hx | hx
              · exact hout x (List.mem_append_left _ hx) p hp (by omega)
              · subst hx
                exact hhead p (by omega) (by omega) hp
              · rcases hparts pre _ (fun k hk' => by rw [hk]; exact List.mem_append_left _ hk') hx with h | h | h
                · omega
                · subst h; exact hnucne hb
                · omega
              · rcases hparts suf _ (fun k hk' => by rw [hk]; exact List.mem_append_right _ (List.mem_cons_of_mem _ hk')) hx with h | h | h
                · omega
                · subst h; exact hnucne hb
                · omega
              · exact hout x (List.mem_append_right _ hx) p hp (by omega)
            · intro u hu
              cases hu
              dsimp only
              unfold rs3Up
              split
              · cases k with
                | N => left; show n < _; omega
                | S =>
                  dsimp only
                  rw [hheads, List.mem_append, List.mem_cons] at hnuc
                  rcases hnuc with h | h | h
                  · have := heads_bounds h; dsimp only at this; omega
                  · exact absurd (congrArg Prod.fst h) (by simp)
                  · have := heads_bounds h; dsimp only at this; omega
              · left; show n < _; omega
          · have := ih2 (pre ++ [(k, t)]) (by rw [hk]; simp)
            have e1 : n + 1 + nodesAll (pre ++ [(k, t)]) = n + 1 + nodesAll pre + 1 + t.nodes := by
              have : ∀ xs ys : List (Nuc × Rst), nodesAll (xs ++ ys) = nodesAll xs + nodesAll ys := by
                intro xs ys
                induction xs with
                | nil => simp [nodesAll]
                | cons x xs ih => obtain ⟨a, b⟩ := x; rw [List.cons_append, nodesAll, nodesAll, ih]; omega
              rw [this, nodesAll, nodesAll]
              omega
            have e2 : (edusAll (pre ++ [(k, t)])).length = (edusAll pre).length + t.edus.length := by
              rw [edusAll_eq, edusAll_eq]; simp
            rw [e1, e2, ← Nat.add_assoc] at this
            exact this
      simpa [nodesAll, edusAll] using key kids [] rfl

end Dg
