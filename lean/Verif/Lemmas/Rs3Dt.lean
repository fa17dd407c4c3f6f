import Verif.Lemmas.Rs3Pos

/-! The tree read from a written .rs3 file. -/

namespace Dg
open Rst Rs3Writer
open Rs3Data hiding edus
open DG (mapE mapE_ok mapE_total)

/-- the relations declared as relations of a nucleus and a satellite are those with a satellite; no relation is called span -/
def Rst.Fits (isRst : List Char → Bool) (T : Rst) : Prop :=
  ∀ name kids, Part (.rel name kids) T → (isRst name = true ↔ .S ∈ kids.map Prod.fst) ∧ name ≠ ['s', 'p', 'a', 'n']

theorem Rst.Fits.kid {isRst : List Char → Bool} {name : List Char} {kids : List (Nuc × Rst)} (h : Fits isRst (.rel name kids)) {k : Nuc × Rst} (hk : k ∈ kids) : Fits isRst k.2 :=
  fun n ks hp => h n ks (.kid (by exact hk) hp)

theorem attached_two (name : List Char) (n nuc x y q : Nat) (k1 k2 : Nuc) : attached true name n nuc [(k1, x), (k2, y)] q =
    (if (rs3Up true name n nuc k1).2 = q then [x] else []) ++ (if (rs3Up true name n nuc k2).2 = q then [y] else []) := by
  unfold attached
  by_cases h1 : (rs3Up true name n nuc k1).2 = q
  · by_cases h2 : (rs3Up true name n nuc k2).2 = q <;> simp [h1, h2]
  · by_cases h2 : (rs3Up true name n nuc k2).2 = q <;> simp [h1, h2]

theorem attached_NS (name : List Char) (n nuc x y q : Nat) : attached true name n nuc [(.N, x), (.S, y)] q = (if n = q then [x] else []) ++ (if nuc = q then [y] else []) :=
  attached_two name n nuc x y q .N .S

theorem attached_SN (name : List Char) (n nuc x y q : Nat) : attached true name n nuc [(.S, x), (.N, y)] q = (if nuc = q then [x] else []) ++ (if n = q then [y] else []) :=
  attached_two name n nuc x y q .S .N

/-- the parts of a relation with a satellite -/
theorem rep_rst {d : Rs3Data} {isRst : List Char → Bool} {n a : Nat} {up : Option (List Char × Nat)} {exts : List Nat} {name : List Char} {kids : List (Nuc × Rst)}
    (h : Rep d isRst n up exts a (.rel name kids)) (hr : isRst name = true) (hs : kids.map Prod.fst = [.N, .S] ∨ kids.map Prod.fst = [.S, .N]) :
    ∃ (nuc sat : Rst) (jn js an as : Nat), (d.kids (some (decimal n))).Perm ((jn :: exts).map decimal) ∧ Rep d isRst jn (some (['s', 'p', 'a', 'n'], n)) [js] an nuc ∧
      Rep d isRst js (some (name, jn)) [] as sat ∧
      ((kids = [(.N, nuc), (.S, sat)] ∧ an = a ∧ as = a + nuc.edus.length) ∨ (kids = [(.S, sat), (.N, nuc)] ∧ as = a ∧ an = a + sat.edus.length)) := by
  rw [Rep] at h
  obtain ⟨_, hk, _, hall⟩ := h
  rw [hr] at hk
  rcases hs with hs | hs
  · match kids, hs with
    | [(.N, nuc), (.S, sat)], _ =>
      rw [RepAll, RepAll, hr] at hall
      obtain ⟨h1, h2, _⟩ := hall
      rw [nucNumber, heads, heads, heads, attached_NS] at h1 h2 hk
      have hp := nodes_pos nuc
      refine ⟨nuc, sat, n + 1 + 1, n + 1 + 1 + nuc.nodes + 1, a, a + nuc.edus.length, ?_, ?_, ?_, .inl ⟨rfl, rfl, rfl⟩⟩
      · have e2 : ¬ (n + 1 + 1 = n) := by omega
        rw [if_pos rfl, if_neg (by exact e2)] at hk
        exact hk
      · have e1 : ¬ (n = n + 1 + 1) := by omega
        rw [if_neg (by exact e1), if_pos rfl] at h1
        exact h1
      · have e1 : ¬ (n = n + 1 + 1 + nuc.nodes + 1) := by omega
        have e2 : ¬ (n + 1 + 1 = n + 1 + 1 + nuc.nodes + 1) := by omega
        rw [if_neg (by exact e1), if_neg (by exact e2)] at h2
        exact h2
  · match kids, hs with
    | [(.S, sat), (.N, nuc)], _ =>
      rw [RepAll, RepAll, hr] at hall
      obtain ⟨h1, h2, _⟩ := hall
      rw [nucNumber, nucNumber, heads, heads, heads, attached_SN] at h1 h2 hk
      have hp := nodes_pos sat
      refine ⟨nuc, sat, n + 1 + 1 + sat.nodes + 1, n + 1 + 1, a + sat.edus.length, a, ?_, ?_, ?_, .inr ⟨rfl, rfl, rfl⟩⟩
      · have e2 : ¬ (n + 1 + 1 + sat.nodes + 1 = n) := by omega
        rw [if_neg (by exact e2), if_pos rfl] at hk
        exact hk
      · have e1 : ¬ (n = n + 1 + 1 + sat.nodes + 1) := by omega
        rw [if_pos rfl, if_neg (by exact e1)] at h2
        exact h2
      · have e1 : ¬ (n = n + 1 + 1) := by omega
        have e2 : ¬ (n + 1 + 1 + sat.nodes + 1 = n + 1 + 1) := by omega
        rw [if_neg (by exact e2), if_neg (by exact e1)] at h1
        exact h1

/-- the parts of a multinuclear relation, numbered -/
def RepMulti (d : Rs3Data) (isRst : List Char → Bool) (name : List Char) (n : Nat) : Nat → Nat → List (Nuc × Rst) → Prop
  | _, _, [] => True
  | m, a, (_, t) :: r => Rep d isRst (m + 1) (some (name, n)) [] a t ∧ RepMulti d isRst name n (m + 1 + t.nodes) (a + t.edus.length) r

theorem rep_multi {d : Rs3Data} {isRst : List Char → Bool} {n a : Nat} {up : Option (List Char × Nat)} {exts : List Nat} {name : List Char} {kids : List (Nuc × Rst)}
    (h : Rep d isRst n up exts a (.rel name kids)) (hr : isRst name = false) :
    (d.kids (some (decimal n))).Perm (((heads (n + 1) kids).map Prod.snd ++ exts).map decimal) ∧ RepMulti d isRst name n (n + 1) a kids := by
  rw [Rep] at h
  obtain ⟨_, hk, _, hall⟩ := h
  have hf : ∀ nuc hs, attached (isRst name) name n nuc hs n = hs.map Prod.snd := by
    intro nuc hs
    simp [attached, rs3Up, hr]
  rw [hf] at hk
  refine ⟨hk, ?_⟩
  have key : ∀ (ks : List (Nuc × Rst)) (m a nuc : Nat) (hs : List (Nuc × Nat)), n ≤ m → RepAll d isRst name n nuc hs m a ks → RepMulti d isRst name n m a ks := by
    intro ks
    induction ks with
    | nil => intro m a nuc hs _ _; trivial
    | cons k ks ih =>
      obtain ⟨k, t⟩ := k
      intro m a nuc hs hm h
      rw [RepAll] at h
      have e : attached (isRst name) name n nuc hs (m + 1) = [] := by
        have : ¬ (n = m + 1) := by omega
        simp [attached, rs3Up, hr, this]
      refine ⟨?_, ih _ _ nuc hs (by omega) h.2⟩
      have h1 := h.1
      rw [e] at h1
      simpa [rs3Up, hr] using h1
  exact key kids _ _ _ _ (by omega) hall

theorem size_pos (t : Rst) : 1 ≤ t.size := by
  cases t with
  | edu s => exact Nat.le_refl _
  | rel a ks => rw [size]; omega

theorem Rst.Regular.edus_pos {T : Rst} (h : Regular T) : 1 ≤ T.edus.length := by
  induction T using Rst.ind with
  | h1 s => exact Nat.le_refl _
  | h2 name kids ih =>
    obtain ⟨k, hk, _⟩ := h.nucleus name kids (.refl _)
    have := ih k hk (h.kid hk)
    rw [edus, edusAll_eq]
    cases he : k.2.edus with
    | nil => rw [he] at this; simp at this
    | cons x xs =>
      have hx : x ∈ kids.flatMap (fun k => k.2.edus) := List.mem_flatMap.2 ⟨k, hk, by rw [he]; simp⟩
      exact List.length_pos_of_mem hx

theorem multi_shape {isRst : List Char → Bool} {name : List Char} {kids : List (Nuc × Rst)} (hreg : Regular (.rel name kids)) (hfit : Fits isRst (.rel name kids))
    (hr : isRst name = false) : 2 ≤ kids.length ∧ ∀ k ∈ kids, k.1 = .N := by
  obtain ⟨hs, _⟩ := hreg name kids (.refl _)
  obtain ⟨hi, _⟩ := hfit name kids (.refl _)
  rw [hr] at hi
  rcases hs with hs | hs | hs
  · rw [hs] at hi; simp at hi
  · rw [hs] at hi; simp at hi
  · exact hs

theorem rst_shape {isRst : List Char → Bool} {name : List Char} {kids : List (Nuc × Rst)} (hreg : Regular (.rel name kids)) (hfit : Fits isRst (.rel name kids))
    (hr : isRst name = true) : kids.map Prod.fst = [.N, .S] ∨ kids.map Prod.fst = [.S, .N] := by
  obtain ⟨hs, _⟩ := hreg name kids (.refl _)
  obtain ⟨hi, _⟩ := hfit name kids (.refl _)
  rcases hs with hs | hs | hs
  · exact .inl hs
  · exact .inr hs
  · have := hi.1 hr
    obtain ⟨k, hk, e⟩ := List.mem_map.1 this
    rw [hs.2 k hk] at e
    cases e

/-- the numbers of a multinuclear relation's parts as list of IDs with fuel bounds -/
theorem position_rep {d : Rs3Data} {isRst : List Char → Bool} (hnd : d.edus.Nodup) (T : Rst) : Regular T → Fits isRst T → ∀ (n a : Nat) (up : Option (List Char × Nat)) (exts pes : List Nat) (c : Nat),
    Rep d isRst n up exts a T → List.Forall₂ (fun e pe => ∀ f, c ≤ f → d.position f (some (decimal e)) = .ok pe) exts pes →
    ∃ p, a ≤ p ∧ p < a + T.edus.length ∧ ∀ f, T.size + c ≤ f → d.position f (some (decimal n)) = .ok (match T with | .edu _ => p | .rel _ _ => pes.foldl min p) := by
  induction T using Rst.ind with
  | h1 s =>
    intro _ _ n a up exts pes c h _
    obtain ⟨_, _, he, _⟩ := h
    refine ⟨a, Nat.le_refl _, by simp [edus], ?_⟩
    intro f hf
    rw [size] at hf
    obtain ⟨f, rfl⟩ : ∃ g, f = g + 1 := ⟨f - 1, by omega⟩
    obtain ⟨hlt, hget⟩ := List.getElem?_eq_some_iff.1 he
    have hmem : decimal n ∈ d.edus := List.mem_of_getElem? he
    rw [position]
    dsimp only
    rw [if_pos hmem]
    congr 1
    rw [← hget]
    exact List.Nodup.idxOf_getElem hnd _ _
  | h2 name kids ih =>
    intro hreg hfit n a up exts pes c h hext
    have hrep := h
    rw [Rep] at h
    obtain ⟨_, _, hne, _⟩ := h
    have hpos : ∀ (f : Nat) (xs : List (List Char)) (ys : List Nat) (p : Nat) (zs : List Nat), (d.kids (some (decimal n))).Perm xs →
        mapE (fun c => d.position f (some c)) xs = .ok (ys ++ zs) → minE ys = .ok p → d.position (f + 1) (some (decimal n)) = .ok (zs.foldl min p) := by
      intro f xs ys p zs hp hm hmin
      rw [position, if_neg hne]
      obtain ⟨ys', h1, h2⟩ := mapE_perm hp hm
      rw [h1, except_bind_ok]
      exact minE_perm_append h2 hmin
    have hextm : ∀ f, c ≤ f → mapE (fun c => d.position f (some c)) (exts.map decimal) = .ok pes := by
      intro f hf
      rw [mapE_ok]
      clear hrep hpos
      revert hext
      intro hext
      clear * - hext hf
      induction hext with
      | nil => exact .nil
      | cons h1 _ ih => exact .cons (h1 f hf) ih
    cases hr : isRst name with
    | true =>
      obtain ⟨nuc, sat, jn, js, an, as, hk, hn, hs, hor⟩ := rep_rst hrep hr (rst_shape hreg hfit hr)
      have hmn : ∃ k, (k, nuc) ∈ kids := by rcases hor with ⟨rfl, _⟩ | ⟨rfl, _⟩ <;> exact ⟨.N, by simp⟩
      have hms : ∃ k, (k, sat) ∈ kids := by rcases hor with ⟨rfl, _⟩ | ⟨rfl, _⟩ <;> exact ⟨.S, by simp⟩
      obtain ⟨kn, hmn⟩ := hmn
      obtain ⟨ks, hms⟩ := hms
      have hsize : (Rst.rel name kids).size = 1 + (nuc.size + sat.size) := by
        rcases hor with ⟨rfl, _⟩ | ⟨rfl, _⟩ <;> simp [size, sizeAll] <;> omega
      have hlen : (Rst.rel name kids).edus.length = nuc.edus.length + sat.edus.length := by
        rcases hor with ⟨rfl, _⟩ | ⟨rfl, _⟩ <;> simp [edus, edusAll] <;> omega
      obtain ⟨ps, hs1, hs2, hs3⟩ := ih (ks, sat) hms (hreg.kid hms) (hfit.kid hms) js as _ [] [] 0 hs .nil
      dsimp only at hs2 hs3
      have hs3' : ∀ f, sat.size ≤ f → d.position f (some (decimal js)) = .ok ps := by
        intro f hf
        rw [hs3 f (by omega)]
        cases sat <;> rfl
      obtain ⟨pn, hn1, hn2, hn3⟩ := ih (kn, nuc) hmn (hreg.kid hmn) (hfit.kid hmn) jn an _ [js] [ps] sat.size hn (.cons hs3' .nil)
      dsimp only at hn2 hn3
      obtain ⟨q, hq1, hq2, hq3⟩ : ∃ q, a ≤ q ∧ q < a + (Rst.rel name kids).edus.length ∧ ∀ f, nuc.size + sat.size ≤ f → d.position f (some (decimal jn)) = .ok q := by
        refine ⟨_, ?_, ?_, hn3⟩
        · cases nuc with
          | edu s => dsimp only; rcases hor with ⟨_, rfl, rfl⟩ | ⟨_, rfl, rfl⟩ <;> omega
          | rel x y => show a ≤ min pn ps; rcases hor with ⟨_, rfl, rfl⟩ | ⟨_, rfl, rfl⟩ <;> omega
        · cases nuc with
          | edu s => dsimp only; rcases hor with ⟨_, rfl, rfl⟩ | ⟨_, rfl, rfl⟩ <;> omega
          | rel x y => show min pn ps < _; rcases hor with ⟨_, rfl, rfl⟩ | ⟨_, rfl, rfl⟩ <;> omega
      refine ⟨q, hq1, hq2, ?_⟩
      intro f hf
      rw [hsize] at hf
      obtain ⟨f, rfl⟩ : ∃ g, f = g + 1 := ⟨f - 1, by omega⟩
      refine hpos f _ [q] q pes hk ?_ rfl
      rw [List.map_cons, mapE_ok]
      exact .cons (hq3 f (by omega)) (mapE_ok.1 (hextm f (by omega)))
    | false =>
      obtain ⟨hk, hm⟩ := rep_multi hrep hr
      obtain ⟨hl2, hN⟩ := multi_shape hreg hfit hr
      have key : ∀ (ks : List (Nuc × Rst)), (∀ k ∈ ks, k ∈ kids) → ∀ m b, RepMulti d isRst name n m b ks →
          ∃ ps, (∀ p ∈ ps, b ≤ p ∧ p < b + (edusAll ks).length) ∧ ps.length = ks.length ∧
            ∀ f, sizeAll ks ≤ f → mapE (fun c => d.position f (some c)) (((heads m ks).map Prod.snd).map decimal) = .ok ps := by
        intro ks
        induction ks with
        | nil => intro _ m b _; exact ⟨[], by simp, rfl, fun f _ => rfl⟩
        | cons k ks ih2 =>
          obtain ⟨k, t⟩ := k
          intro hsub m b hrm
          obtain ⟨h1, h2⟩ := hrm
          have hkm := hsub (k, t) (by simp)
          obtain ⟨p, hp1, hp2, hp3⟩ := ih (k, t) hkm (hreg.kid hkm) (hfit.kid hkm) (m + 1) b _ [] [] 0 h1 .nil
          dsimp only at hp2 hp3
          have hp3' : ∀ f, t.size ≤ f → d.position f (some (decimal (m + 1))) = .ok p := by
            intro f hf
            rw [hp3 f (by omega)]
            cases t <;> rfl
          obtain ⟨ps, h3, h4, h5⟩ := ih2 (fun k hk => hsub k (List.mem_cons_of_mem _ hk)) _ _ h2
          refine ⟨p :: ps, ?_, by simp [h4], ?_⟩
          · intro x hx
            rw [edusAll, List.length_append]
            rcases List.mem_cons.1 hx with rfl | hx
            · omega
            · have := h3 x hx; omega
          · intro f hf
            rw [sizeAll] at hf
            rw [heads, List.map_cons, List.map_cons, mapE_ok]
            exact .cons (hp3' f (by omega)) (mapE_ok.1 (h5 f (by omega)))
      obtain ⟨ps, h1, h2, h3⟩ := key kids (fun k hk => hk) _ _ hm
      match ps, h2 with
      | [], h2 => simp at h2; omega
      | p0 :: ps, h2 =>
        have hmin : minE (p0 :: ps) = .ok (ps.foldl min p0) := rfl
        have hmem := (minE_ok.1 hmin).1
        have hb := h1 _ hmem
        refine ⟨ps.foldl min p0, hb.1, by rw [edus]; exact hb.2, ?_⟩
        intro f hf
        rw [size] at hf
        obtain ⟨f, rfl⟩ : ∃ g, f = g + 1 := ⟨f - 1, by omega⟩
        refine hpos f _ (p0 :: ps) _ pes hk ?_ hmin
        rw [List.map_append]
        exact mapE_append_ok (h3 f (by omega)) (hextm f (by omega))

end Dg
