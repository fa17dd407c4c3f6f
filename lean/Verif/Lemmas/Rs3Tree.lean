import Mathlib.Data.List.Permutation
import Verif.Lemmas.Rs3Dt
import Verif.Props.C52

/-! The tree read from a written .rs3 file. -/

namespace Dg
open Rst Rs3Writer
open Rs3Data hiding edus
open DG (mapE mapE_ok mapE_total)

theorem rep_entry {d : Rs3Data} {isRst : List Char → Bool} {n a : Nat} {up : Option (List Char × Nat)} {exts : List Nat} {T : Rst} (h : Rep d isRst n up exts a T) :
    ∃ kind, Dict.find d.elems (decimal n) = some (repEntry isRst up kind) := by
  cases T with
  | edu s => exact ⟨_, h.1⟩
  | rel name kids => rw [Rep] at h; exact ⟨_, h.1⟩

theorem rep_reltype {d : Rs3Data} {isRst : List Char → Bool} {n a : Nat} {up : Option (List Char × Nat)} {exts : List Nat} {T : Rst} (h : Rep d isRst n up exts a T) :
    d.reltypeOf (decimal n) = (upType isRst up).1 ∧ d.nuclearityOf (decimal n) = some (upType isRst up).2 := by
  obtain ⟨kind, e⟩ := rep_entry h
  unfold reltypeOf nuclearityOf
  rw [e]
  exact ⟨rfl, rfl⟩

/-- the relation of a satellite or a part of a multinuclear relation -/
theorem rep_relname {d : Rs3Data} {isRst : List Char → Bool} {n a p : Nat} {name : List Char} {exts : List Nat} {T : Rst} (h : Rep d isRst n (some (name, p)) exts a T)
    (hs : name ≠ ['s', 'p', 'a', 'n']) : d.relname (some (decimal n)) = some name := by
  obtain ⟨kind, e⟩ := rep_entry h
  unfold relname
  dsimp only
  rw [e]
  dsimp only
  rw [if_neg]
  · rfl
  · unfold inheritsRelname
    have : (repEntry isRst (some (name, p)) kind).relname = some name := rfl
    rw [this]
    simp [hs]

theorem HasHeight.of_rep {d : Rs3Data} {isRst : List Char → Bool} {n a p h : Nat} {name : List Char} {exts : List Nat} {T : Rst} (hr : Rep d isRst n (some (name, p)) exts a T)
    (hp : HasHeight d (decimal p) h) : HasHeight d (decimal n) (h + 1) := by
  obtain ⟨kind, e⟩ := rep_entry hr
  exact .child e rfl hp

theorem rep_start {d : Rs3Data} {isRst : List Char → Bool} (T : Rst) : Regular T → ∀ {n a : Nat} {up : Option (List Char × Nat)} {exts : List Nat}, Rep d isRst n up exts a T →
    ∃ s, T.edus.head? = some s ∧ d.eduStrings[a]? = some s := by
  induction T using Rst.ind with
  | h1 s =>
    intro _ n a up exts h
    refine ⟨s, rfl, ?_⟩
    obtain ⟨h1, _, h3, _⟩ := h
    unfold eduStrings
    rw [List.getElem?_map, h3, Option.map_some, h1]
    rfl
  | h2 name kids ih =>
    intro hreg n a up exts h
    rw [Rep] at h
    obtain ⟨_, _, _, h4⟩ := h
    obtain ⟨k0, hk0, _⟩ := hreg.nucleus name kids (.refl _)
    match kids, hk0 with
    | (k, t) :: ks, _ =>
      rw [RepAll] at h4
      obtain ⟨s, h5, h6⟩ := ih (k, t) (by simp) (hreg.kid (k := (k, t)) (by simp)) h4.1
      refine ⟨s, ?_, h6⟩
      dsimp only at h5
      rw [edus, edusAll, List.head?_append, h5]
      rfl

theorem rep_startsAt {d : Rs3Data} {isRst : List Char → Bool} (hnd : d.eduStrings.Nodup) {T : Rst} (hreg : Regular T) {n a : Nat} {up : Option (List Char × Nat)} {exts : List Nat}
    (h : Rep d isRst n up exts a T) {t : DTree} (ht : t.leaves = T.edus) : StartsAt d.eduStrings t.leaves a := by
  obtain ⟨s, h1, h2⟩ := rep_start T hreg h
  rw [ht]
  exact startsAt_of_getElem? hnd h1 h2

/-- a nucleus and its satellite -/
theorem nucsat_rep {d : Rs3Data} {isRst : List Char → Bool} (hnd : d.edus.Nodup) {T U : Rst} {n a p h e b : Nat} {name : List Char} {X Y : DTree}
    (hreg : Regular T) (hfit : Fits isRst T) (hT : Rep d isRst n (some (['s', 'p', 'a', 'n'], p)) [e] a T) (hh : HasHeight d (decimal n) h)
    (hregU : Regular U) (hfitU : Fits isRst U) (hU : Rep d isRst e (some (name, n)) [] b U) (hs : name ≠ ['s', 'p', 'a', 'n'])
    (hdis : a + T.edus.length ≤ b ∨ b + U.edus.length ≤ a) (hlen : h + T.size + U.size ≤ d.elems.length + 1) :
    d.sortedNucsat (.node ['N'] (some (decimal n)) [X]) (.node ['S'] (some (decimal e)) [Y]) =
      .ok (.node name (some (decimal n)) (if b < a then [.node ['S'] (some (decimal e)) [Y], .node ['N'] (some (decimal n)) [X]]
        else [.node ['N'] (some (decimal n)) [X], .node ['S'] (some (decimal e)) [Y]])) := by
  have hs1 := size_pos T
  have hs2 := size_pos U
  have hh2 : HasHeight d (decimal e) (h + 1) := .of_rep hU hh
  obtain ⟨pe, he1, he2, he3⟩ := position_rep hnd U hregU hfitU e b _ [] [] 0 hU .nil
  have he3' : ∀ f, U.size ≤ f → d.position f (some (decimal e)) = .ok pe := by
    intro f hf
    rw [he3 f (by omega)]
    cases U <;> rfl
  obtain ⟨pn, hn1, hn2, hn3⟩ := position_rep hnd T hreg hfit n a _ [e] [pe] U.size hT (.cons he3' .nil)
  have hhpos : 1 ≤ h := by cases hh <;> omega
  rw [sortedNucsat_eq (nuc := .node ['N'] (some (decimal n)) [X]) (sat := .node ['S'] (some (decimal e)) [Y]) (nodeHeight_of hh (by omega)) (nodeHeight_of hh2 (by omega))
    (hn3 _ (by omega)) (he3' _ (by omega)) (rep_relname hU hs)]
  congr 2
  by_cases hba : b < a
  · rw [if_pos hba, if_pos]
    cases T with
    | edu s => dsimp only; omega
    | rel x y => show pe ≤ min pn pe; omega
  · rw [if_neg hba, if_neg]
    cases T with
    | edu s => dsimp only; omega
    | rel x y => show ¬ (pe ≤ min pn pe); omega

theorem plainAll_beside {T U : Rst} {X Y : DTree} {n e a b : Nat} (hX : X.plain = T.tree) (hY : Y.plain = U.tree) :
    DTree.plainAll (if b < a then [.node ['S'] (some (decimal e)) [Y], .node ['N'] (some (decimal n)) [X]] else [.node ['N'] (some (decimal n)) [X], .node ['S'] (some (decimal e)) [Y]]) =
      if b < a then [.node ['S'] [U.tree], .node ['N'] [T.tree]] else [.node ['N'] [T.tree], .node ['S'] [U.tree]] := by
  split <;> simp [DTree.plainAll, DTree.plain, hX, hY]

/-- the elements of a multinuclear relation -/
theorem multinuc_split {d : Rs3Data} {i : List Char} {ids exts : List (List Char)} (hk : (d.kids (some i)).Perm (ids ++ exts)) (hi : ∀ x ∈ ids, d.reltypeOf x = some .multinuc)
    (he : ∀ x ∈ exts, d.reltypeOf x ≠ some .multinuc) :
    ((d.kids (some i)).filter (fun c => decide (d.reltypeOf c = some .multinuc))).Perm ids ∧
    ((d.kids (some i)).filter (fun c => !decide (c ∈ (d.kids (some i)).filter (fun c => decide (d.reltypeOf c = some .multinuc))))).Perm exts := by
  constructor
  · refine (hk.filter _).trans ?_
    rw [List.filter_append, List.filter_eq_self.2 (by intro x hx; simpa using hi x hx), List.filter_eq_nil_iff.2 (by intro x hx; simpa using he x hx), List.append_nil]
  · have e : (d.kids (some i)).filter (fun c => !decide (c ∈ (d.kids (some i)).filter (fun c => decide (d.reltypeOf c = some .multinuc)))) =
        (d.kids (some i)).filter (fun c => !decide (d.reltypeOf c = some .multinuc)) := by
      refine List.filter_congr ?_
      intro x hx
      congr 1
      rw [decide_eq_decide, List.mem_filter]
      simp [hx]
    rw [e]
    refine (hk.filter _).trans ?_
    rw [List.filter_append, List.filter_eq_nil_iff.2 (by intro x hx; simpa using hi x hx), List.filter_eq_self.2 (by intro x hx; simpa using he x hx), List.nil_append]

theorem nWrap_other {l : List Char} (h1 : l ≠ ['N']) (h2 : l ≠ ['S']) (i j : Option (List Char)) (ks : List DTree) : nWrap (.node l i ks) j = .node ['N'] j [.node l i ks] := by
  unfold nWrap
  dsimp only
  rw [if_neg h1, if_neg h2]

theorem sWrap_other {l : List Char} (h1 : l ≠ ['N']) (h2 : l ≠ ['S']) (i j : Option (List Char)) (ks : List DTree) : sWrap (.node l i ks) j = .node ['S'] j [.node l i ks] := by
  unfold sWrap
  dsimp only
  rw [if_neg h2, if_neg h1]

theorem multi_parts {d : Rs3Data} {isRst : List Char → Bool} (hnd : d.edus.Nodup) {n h : Nat} {name : List Char} (hr : isRst name = false) (hs : name ≠ ['s', 'p', 'a', 'n'])
    (hh : HasHeight d (decimal n) h) (ks : List (Nuc × Rst)) (hN : ∀ k ∈ ks, k.1 = .N) (hreg : ∀ k ∈ ks, Regular k.2) (hfit : ∀ k ∈ ks, Fits isRst k.2)
    (ih : ∀ k ∈ ks, ∀ m a, Rep d isRst m (some (name, n)) [] a k.2 → HasHeight d (decimal m) (h + 1) →
      h + 1 + k.2.size ≤ d.elems.length + 1 → ∃ X, X.plain = k.2.tree ∧ ∀ f, k.2.size ≤ f → d.dt f (decimal m) = .ok (.node ['N'] (some (decimal m)) [X])) :
    ∀ m a, RepMulti d isRst name n m a ks → h + 1 + sizeAll ks ≤ d.elems.length + 1 →
    ∃ (ts : List DTree) (ps : List Nat), ts.map DTree.plain = treeAll ks ∧
      (∀ f, sizeAll ks ≤ f → mapE (d.dt f) (((heads m ks).map Prod.snd).map decimal) = .ok ts) ∧
      List.Forall₂ (fun t p => d.position (d.elems.length + 1) t.rootId = .ok p) ts ps ∧ ps.Pairwise (· < ·) ∧ (∀ p ∈ ps, a ≤ p) ∧
      (∀ t ∈ ts, ∃ h, d.nodeHeight t.rootId = .ok h) ∧
      List.Forall₂ (fun i t => (∃ X, t = .node ['N'] (some i) [X]) ∧ d.relname (some i) = some name ∧ d.reltypeOf i = some .multinuc ∧ d.nuclearityOf i = some .nucleus)
        (((heads m ks).map Prod.snd).map decimal) ts := by
  induction ks with
  | nil => intro m a _ _; exact ⟨[], [], rfl, fun f _ => rfl, .nil, .nil, by simp, by simp, .nil⟩
  | cons k ks ih2 =>
    obtain ⟨k, t⟩ := k
    intro m a hrm hlen
    obtain ⟨h1, h2⟩ := hrm
    rw [sizeAll] at hlen
    have hsz := size_pos t
    have hh1 : HasHeight d (decimal (m + 1)) (h + 1) := .of_rep h1 hh
    obtain ⟨X, hX, hdt⟩ := ih (k, t) (by simp) (m + 1) a h1 hh1 (by show h + 1 + t.size ≤ _; omega)
    obtain ⟨p, hp1, hp2, hp3⟩ := position_rep hnd t (hreg (k, t) (by simp)) (hfit (k, t) (by simp)) (m + 1) a _ [] [] 0 h1 .nil
    have hp3' : d.position (d.elems.length + 1) (some (decimal (m + 1))) = .ok p := by
      rw [hp3 _ (by omega)]
      cases t <;> rfl
    obtain ⟨ts, ps, a1, a2, a3, a4, a5, a6, a7⟩ := ih2 (fun k hk => hN k (List.mem_cons_of_mem _ hk)) (fun k hk => hreg k (List.mem_cons_of_mem _ hk))
      (fun k hk => hfit k (List.mem_cons_of_mem _ hk)) (fun k hk => ih k (List.mem_cons_of_mem _ hk)) _ _ h2 (by omega)
    have hkN := hN (k, t) (by simp)
    dsimp only at hkN hX hdt
    subst hkN
    refine ⟨.node ['N'] (some (decimal (m + 1))) [X] :: ts, p :: ps, ?_, ?_, .cons hp3' a3, ?_, ?_, ?_, ?_⟩
    · rw [List.map_cons, a1, treeAll, DTree.plain, DTree.plainAll, DTree.plainAll, hX]
      rfl
    · intro f hf
      rw [sizeAll] at hf
      rw [heads, List.map_cons, List.map_cons, mapE_ok]
      exact .cons (hdt f (by omega)) (mapE_ok.1 (a2 f (by omega)))
    · rw [List.pairwise_cons]
      exact ⟨fun q hq => by have := a5 q hq; omega, a4⟩
    · intro q hq
      rcases List.mem_cons.1 hq with rfl | hq
      · omega
      · have := a5 q hq; omega
    · intro t' ht'
      rcases List.mem_cons.1 ht' with rfl | ht'
      · exact ⟨h + 1, nodeHeight_of hh1 (by omega)⟩
      · exact a6 t' ht'
    · rw [heads, List.map_cons, List.map_cons]
      refine .cons ⟨⟨X, rfl⟩, rep_relname h1 hs, ?_, ?_⟩ a7
      · rw [(rep_reltype h1).1]; simp [upType, hs, hr]
      · rw [(rep_reltype h1).2]; simp [upType, hs, hr]

theorem dt_rep {d : Rs3Data} {isRst : List Char → Bool} (hnd : d.edus.Nodup) (hts : d.eduStrings.Nodup) (T : Rst) : Regular T → Fits isRst T →
    ∀ (n a h : Nat) (up : Option (List Char × Nat)) (exts : List Nat), Rep d isRst n up exts a T → HasHeight d (decimal n) h →
    (exts = [] → h + T.size ≤ d.elems.length + 1 →
      (up = none → ∃ X, X.plain = T.docTree ∧ ∀ f, T.size ≤ f → d.dt f (decimal n) = .ok X) ∧
      (∀ name p, up = some (name, p) → name ≠ ['s', 'p', 'a', 'n'] → ∃ X, X.plain = T.tree ∧
        ∀ f, T.size ≤ f → d.dt f (decimal n) = .ok (.node (if isRst name then ['S'] else ['N']) (some (decimal n)) [X]))) ∧
    (∀ p U e name b, up = some (['s', 'p', 'a', 'n'], p) → exts = [e] → Regular U → Fits isRst U → Rep d isRst e (some (name, n)) [] b U → name ≠ ['s', 'p', 'a', 'n'] →
      isRst name = true → (∃ Y, Y.plain = U.tree ∧ ∀ f, U.size ≤ f → d.dt f (decimal e) = .ok (.node ['S'] (some (decimal e)) [Y])) →
      (a + T.edus.length ≤ b ∨ b + U.edus.length ≤ a) → h + T.size + U.size ≤ d.elems.length + 1 →
      ∃ rid ks, DTree.plainAll ks = (if b < a then [.node ['S'] [U.tree], .node ['N'] [T.tree]] else [.node ['N'] [T.tree], .node ['S'] [U.tree]]) ∧
        ∀ f, T.size + U.size ≤ f → d.dt f (decimal n) = .ok (.node name rid ks)) := by
  induction T using Rst.ind with
  | h1 s =>
    intro hreg hfit n a h up exts hrep hh
    have hseg : ∀ f, d.dt (f + 1) (decimal n) = d.segment2tree (d.dt f) (decimal n) (repEntry isRst up (.inl s)) s := by
      intro f
      rw [Rs3Data.dt, hrep.1]
      rfl
    constructor
    · intro he hlen
      have hhas : ¬ (Dict.has d.children (some (decimal n)) = true) := by rw [hrep.2.2.2, he]; simp
      have hdt : ∀ f, (Rst.edu s).size ≤ f → d.dt f (decimal n) = .ok (.node (if (upType isRst up).1 = some .rst then ['S'] else ['N']) (some (decimal n)) [.leaf s]) := by
        intro f hf
        rw [size] at hf
        obtain ⟨f, rfl⟩ : ∃ g, f = g + 1 := ⟨f - 1, by omega⟩
        rw [hseg]
        unfold segment2tree
        rw [if_neg hhas]
        rfl
      constructor
      · intro hup
        subst hup
        exact ⟨_, rfl, hdt⟩
      · intro name p hup hs
        subst hup
        refine ⟨.leaf s, rfl, ?_⟩
        intro f hf
        rw [hdt f hf]
        congr 2
        cases hr : isRst name <;> simp [upType, hs, hr]
    · intro p U e name b hup he hregU hfitU hU hs hr hY hdis hlen
      obtain ⟨Y, hY, hdtY⟩ := hY
      subst hup he
      have hhas : Dict.has d.children (some (decimal n)) = true := by rw [hrep.2.2.2]; simp
      have hkids : d.kids (some (decimal n)) = [decimal e] := List.perm_singleton.1 hrep.2.1
      refine ⟨some (decimal n), _, plainAll_beside (T := .edu s) (U := U) (X := .leaf s) (Y := Y) (n := n) (e := e) (a := a) (b := b) rfl hY, ?_⟩
      intro f hf
      rw [size] at hf
      obtain ⟨f, rfl⟩ : ∃ g, f = g + 1 := ⟨f - 1, by omega⟩
      rw [hseg]
      unfold segment2tree
      rw [if_pos hhas, hkids]
      dsimp only
      rw [hdtY f (by omega), except_bind_ok]
      exact nucsat_rep hnd hreg hfit hrep hh hregU hfitU hU hs hdis hlen
  | h2 tname kids ih =>
    intro hreg hfit n a h up exts hrep hh
    obtain ⟨_, _, hnN, hnS⟩ := hreg tname kids (.refl _)
    obtain ⟨hiff, hts'⟩ := hfit tname kids (.refl _)
    have hentry : Dict.find d.elems (decimal n) = some (repEntry isRst up (.inr (some (if .S ∈ kids.map Prod.fst then ['s', 'p', 'a', 'n'] else ['m', 'u', 'l', 't', 'i', 'n', 'u', 'c'])))) := by
      have := hrep; rw [Rep] at this; exact this.1
    have hpartdt : ∀ name p f, up = some (name, p) → name ≠ ['s', 'p', 'a', 'n'] →
        d.dt (f + 1) (decimal n) = d.group2treePart (d.dt f) (decimal n) (if isRst name then .rst else .multinuc) := by
      intro name p f hup hs
      rw [Rs3Data.dt, hentry]
      subst hup
      cases hr : isRst name with
      | true =>
        have : (upType isRst (some (name, p))).1 = some .rst := by simp [upType, hs, hr]
        simp only [repEntry, this]
        rfl
      | false =>
        have : (upType isRst (some (name, p))).1 = some .multinuc := by simp [upType, hs, hr]
        simp only [repEntry, this]
        rfl
    have hspandt : ∀ f, (upType isRst up).1 = none ∨ (upType isRst up).1 = some .span →
        d.dt (f + 1) (decimal n) = if isRst tname = true then d.group2treeSpan (d.dt f) (decimal n) else d.group2treeMultinuc (d.dt f) (decimal n) := by
      intro f hup
      rw [Rs3Data.dt, hentry]
      have hty : (some (if .S ∈ kids.map Prod.fst then ['s', 'p', 'a', 'n'] else ['m', 'u', 'l', 't', 'i', 'n', 'u', 'c']) = some ['m', 'u', 'l', 't', 'i', 'n', 'u', 'c']) ↔
          ¬ (isRst tname = true) := by
        rw [hiff]
        by_cases hS : .S ∈ kids.map Prod.fst
        · rw [if_pos hS]; simp [hS]
        · rw [if_neg hS]; simp [hS]
      rcases hup with hup | hup
      · simp only [repEntry, hup]
        by_cases hr : isRst tname = true
        · rw [if_neg (by rw [hty]; simp [hr]), if_pos hr]
        · rw [if_pos (by rw [hty]; exact hr), if_neg hr]
      · simp only [repEntry, hup]
        by_cases hr : isRst tname = true
        · rw [if_neg (by rw [hty]; simp [hr]), if_pos hr]
        · rw [if_pos (by rw [hty]; exact hr), if_neg hr]
    cases hr : isRst tname with
    | true =>
      obtain ⟨nuc, sat, jn, js, an, as, hk, hn, hsat, hor⟩ := rep_rst hrep hr (rst_shape hreg hfit hr)
      have hmn : ∃ k, (k, nuc) ∈ kids := by rcases hor with ⟨rfl, _⟩ | ⟨rfl, _⟩ <;> exact ⟨.N, by simp⟩
      have hms : ∃ k, (k, sat) ∈ kids := by rcases hor with ⟨rfl, _⟩ | ⟨rfl, _⟩ <;> exact ⟨.S, by simp⟩
      obtain ⟨kn, hmn⟩ := hmn
      obtain ⟨ks, hms⟩ := hms
      have hsize : (Rst.rel tname kids).size = 1 + (nuc.size + sat.size) := by
        rcases hor with ⟨rfl, _⟩ | ⟨rfl, _⟩ <;> simp [size, sizeAll] <;> omega
      have hlenE : (Rst.rel tname kids).edus.length = nuc.edus.length + sat.edus.length := by
        rcases hor with ⟨rfl, _⟩ | ⟨rfl, _⟩ <;> simp [edus, edusAll] <;> omega
      have hsz1 := size_pos nuc
      have hsz2 := size_pos sat
      have hhn : HasHeight d (decimal jn) (h + 1) := .of_rep hn hh
      have hhs : HasHeight d (decimal js) (h + 1 + 1) := .of_rep hsat hhn
      -- the relation itself
      have hrel : h + (Rst.rel tname kids).size ≤ d.elems.length + 1 → ∃ rid ks, DTree.plainAll ks = treeAll kids ∧
          ∀ f, nuc.size + sat.size ≤ f → d.dt f (decimal jn) = .ok (.node tname rid ks) := by
        intro hlen
        rw [hsize] at hlen
        obtain ⟨Y, hY1, hY2⟩ := ((ih (ks, sat) hms (hreg.kid hms) (hfit.kid hms) js as (h + 1 + 1) _ _ hsat hhs).1 rfl (by show h + 1 + 1 + sat.size ≤ _; omega)).2 tname jn rfl hts'
        rw [hr] at hY2
        obtain ⟨rid, ks', h1, h2⟩ := (ih (kn, nuc) hmn (hreg.kid hmn) (hfit.kid hmn) jn an (h + 1) _ _ hn hhn).2 n sat js tname as rfl rfl (hreg.kid hms) (hfit.kid hms) hsat hts' hr
          ⟨Y, hY1, hY2⟩ (by
            have h1 := (hreg.kid hmn).edus_pos
            have h2 := (hreg.kid hms).edus_pos
            rcases hor with ⟨_, rfl, rfl⟩ | ⟨_, rfl, rfl⟩
            · left; exact Nat.le_refl _
            · right; exact Nat.le_refl _) (by show h + 1 + nuc.size + sat.size ≤ _; omega)
        refine ⟨rid, ks', ?_, h2⟩
        rw [h1]
        have hp1 := (hreg.kid hmn).edus_pos
        have hp2 := (hreg.kid hms).edus_pos
        dsimp only at hp1 hp2
        rcases hor with ⟨rfl, rfl, rfl⟩ | ⟨rfl, rfl, rfl⟩
        · rw [if_neg (by omega)]; rfl
        · rw [if_pos (by omega)]; rfl
      constructor
      · intro he hlen
        obtain ⟨rid, ks', h1, h2⟩ := hrel hlen
        subst he
        have hkids : d.kids (some (decimal n)) = [decimal jn] := List.perm_singleton.1 hk
        have hplain : (DTree.node tname rid ks').plain = (Rst.rel tname kids).tree := by rw [DTree.plain, h1, tree]
        constructor
        · intro hup
          refine ⟨_, hplain, ?_⟩
          intro f hf
          rw [hsize] at hf
          obtain ⟨f, rfl⟩ : ∃ g, f = g + 1 := ⟨f - 1, by omega⟩
          rw [hspandt f (.inl (by rw [hup]; rfl)), if_pos hr]
          unfold group2treeSpan
          rw [hkids]
          exact h2 f (by omega)
        · intro name p hup hs
          refine ⟨_, hplain, ?_⟩
          intro f hf
          rw [hsize] at hf
          obtain ⟨f, rfl⟩ : ∃ g, f = g + 1 := ⟨f - 1, by omega⟩
          rw [hpartdt name p f hup hs]
          unfold group2treePart partSubtree
          rw [hkids]
          dsimp only
          rw [h2 f (by omega), except_bind_ok]
          cases hr2 : isRst name with
          | true =>
            rw [if_pos (by simp), sWrap_other hnN hnS]
            rfl
          | false =>
            rw [if_neg (by simp), nWrap_other hnN hnS]
            rfl
      · intro p U e name b hup he hregU hfitU hU hs hrU hY hdis hlen
        obtain ⟨Y, hY, hdtY⟩ := hY
        obtain ⟨rid, ks', h1, h2⟩ := hrel (by omega)
        subst hup he
        have hplain : (DTree.node tname rid ks').plain = (Rst.rel tname kids).tree := by rw [DTree.plain, h1, tree]
        refine ⟨some (decimal n), _, plainAll_beside (T := .rel tname kids) (U := U) (X := .node tname rid ks') (Y := Y) (n := n) (e := e) (a := a) (b := b) hplain hY, ?_⟩
        intro f hf
        rw [hsize] at hf
        obtain ⟨f, rfl⟩ : ∃ g, f = g + 1 := ⟨f - 1, by omega⟩
        rw [hspandt f (.inr (by rfl)), if_pos hr]
        have hnn : d.nuclearityOf (decimal jn) = some .nucleus := (rep_reltype hn).2
        have hne : d.nuclearityOf (decimal e) = some .satellite := by rw [(rep_reltype hU).2]; simp [upType, hs, hrU]
        have hfin := nucsat_rep (X := .node tname rid ks') (Y := Y) hnd hreg hfit hrep hh hregU hfitU hU hs hdis hlen
        unfold group2treeSpan
        rcases List.perm_pair.1 hk with hk | hk
        · rw [hk]
          dsimp only [List.map_cons, List.map_nil]
          rw [hnn, hne]
          dsimp only
          rw [hdtY f (by omega), h2 f (by omega), except_bind_ok, except_bind_ok, nWrap_other hnN hnS]
          exact hfin
        · rw [hk]
          dsimp only [List.map_cons, List.map_nil]
          rw [hnn, hne]
          dsimp only
          rw [hdtY f (by omega), h2 f (by omega), except_bind_ok, except_bind_ok, nWrap_other hnN hnS]
          exact hfin
    | false =>
      obtain ⟨hk, hm⟩ := rep_multi hrep hr
      obtain ⟨hl2, hN⟩ := multi_shape hreg hfit hr
      have hsize : (Rst.rel tname kids).size = 1 + sizeAll kids := by rw [size]
      have hparts : h + (Rst.rel tname kids).size ≤ d.elems.length + 1 → _ := fun hlen =>
        multi_parts hnd hr hts' hh kids hN (fun k hk => hreg.kid hk) (fun k hk => hfit.kid hk) (fun k hk m a' hrep' hh' hlen' => by
          obtain ⟨X, h1, h2⟩ := ((ih k hk (hreg.kid hk) (hfit.kid hk) m a' (h + 1) _ _ hrep' hh').1 rfl hlen').2 tname n rfl hts'
          rw [hr] at h2
          exact ⟨X, h1, h2⟩) (n + 1) a hm (by rw [hsize] at hlen; omega)
      have hheads : ∀ m (ks : List (Nuc × Rst)), (heads m ks).length = ks.length := by
        intro m ks
        induction ks generalizing m with
        | nil => rfl
        | cons k ks ih => obtain ⟨k, t⟩ := k; rw [heads, List.length_cons, ih, List.length_cons]
      rw [List.map_append] at hk
      constructor
      · intro he hlen
        obtain ⟨ts, ps, b1, b2, b3, b4, b5, b6, b7⟩ := hparts hlen
        subst he
        rw [List.map_nil, List.append_nil] at hk
        have hplain : (DTree.node tname (some (decimal n)) ts).plain = (Rst.rel tname kids).tree := by rw [DTree.plain, DTree.plainAll_eq, b1, tree]
        have hid : ∀ x ∈ ((heads (n + 1) kids).map Prod.snd).map decimal, d.relname (some x) = some tname ∧ d.reltypeOf x = some .multinuc ∧ d.nuclearityOf x = some .nucleus := by
          intro x hx
          obtain ⟨t, _, h1⟩ := forall₂_mem_left b7 hx
          exact h1.2
        have hlen2 : 2 ≤ (d.kids (some (decimal n))).length := by rw [hk.length_eq]; simp [hheads]; exact hl2
        constructor
        · intro hup
          refine ⟨_, hplain, ?_⟩
          intro f hf
          rw [hsize] at hf
          obtain ⟨f, rfl⟩ : ∃ g, f = g + 1 := ⟨f - 1, by omega⟩
          rw [hspandt f (.inl (by rw [hup]; rfl)), if_neg (by simp [hr])]
          obtain ⟨hn1, hn2⟩ := multinuc_split (i := decimal n) (ids := ((heads (n + 1) kids).map Prod.snd).map decimal) (exts := []) (by rw [List.append_nil]; exact hk)
            (fun x hx => (hid x hx).2.1) (by simp)
          unfold group2treeMultinuc
          dsimp only
          obtain ⟨ts', c1, c2⟩ := mapE_perm hn1 (b2 f (by omega))
          rw [List.perm_nil.1 hn2]
          generalize (d.kids (some (decimal n))).filter (fun c => decide (d.reltypeOf c = some .multinuc)) = nucs at hn1 c1
          cases nucs with
          | nil => have := hn1.length_eq; simp [hheads] at this; omega
          | cons c cs =>
            dsimp only
            rw [c1, except_bind_ok, sortSubtrees_sorted c2 b6 b3 b4, except_bind_ok, (hid c (hn1.mem_iff.1 (by simp))).1]
            rfl
        · intro name p hup hs
          refine ⟨_, hplain, ?_⟩
          intro f hf
          rw [hsize] at hf
          obtain ⟨f, rfl⟩ : ∃ g, f = g + 1 := ⟨f - 1, by omega⟩
          rw [hpartdt name p f hup hs]
          have hmap : mapE (fun c => (do return d.elemWrap (← d.dt f c) c : Except PyErr DTree)) (((heads (n + 1) kids).map Prod.snd).map decimal) = .ok ts := by
            have hb2 := b2 f (by omega)
            rw [mapE_ok] at hb2 ⊢
            clear * - hb2 b7
            generalize ((heads (n + 1) kids).map Prod.snd).map decimal = ids at hb2 b7 ⊢
            induction hb2 with
            | nil => exact .nil
            | cons hx _ ih =>
              cases b7 with
              | cons hb b7 =>
                refine .cons ?_ (ih b7)
                rw [hx, except_bind_ok]
                obtain ⟨⟨X, rfl⟩, _, _, hnuc⟩ := hb
                unfold elemWrap
                unfold nuclearityOf at hnuc
                cases he : Dict.find d.elems _ with
                | none => rw [he] at hnuc; cases hnuc
                | some e =>
                  rw [he] at hnuc
                  simp only [Option.map_some, Option.some.injEq] at hnuc
                  dsimp only
                  rw [if_pos hnuc]
                  rfl
          obtain ⟨ts', c1, c2⟩ := mapE_perm hk hmap
          have hsub : d.partSubtree (d.dt f) (decimal n) = .ok (.node tname (some (decimal n)) ts) := by
            unfold partSubtree
            generalize d.kids (some (decimal n)) = kk at hlen2 hk c1
            match kk, hlen2 with
            | c :: c' :: cs, _ =>
              dsimp only
              rw [c1, except_bind_ok, sortSubtrees_sorted c2 b6 b3 b4, except_bind_ok, (hid c (hk.mem_iff.1 (by simp))).1]
              rfl
          unfold group2treePart
          rw [hsub, except_bind_ok]
          cases hr2 : isRst name with
          | true =>
            rw [if_pos (by simp), sWrap_other hnN hnS]
            rfl
          | false =>
            rw [if_neg (by simp), nWrap_other hnN hnS]
            rfl
      · intro p U e name b hup he hregU hfitU hU hs hrU hY hdis hlen
        obtain ⟨Y, hY, hdtY⟩ := hY
        obtain ⟨ts, ps, b1, b2, b3, b4, b5, b6, b7⟩ := hparts (by omega)
        subst hup he
        have hplain : (DTree.node tname (some (decimal n)) ts).plain = (Rst.rel tname kids).tree := by rw [DTree.plain, DTree.plainAll_eq, b1, tree]
        have hid : ∀ x ∈ ((heads (n + 1) kids).map Prod.snd).map decimal, d.relname (some x) = some tname ∧ d.reltypeOf x = some .multinuc ∧ d.nuclearityOf x = some .nucleus := by
          intro x hx
          obtain ⟨t, _, h1⟩ := forall₂_mem_left b7 hx
          exact h1.2
        refine ⟨some (decimal n), _, plainAll_beside (T := .rel tname kids) (U := U) (X := .node tname (some (decimal n)) ts) (Y := Y) (n := n) (e := e) (a := a) (b := b) hplain hY, ?_⟩
        intro f hf
        rw [hsize] at hf
        obtain ⟨f, rfl⟩ : ∃ g, f = g + 1 := ⟨f - 1, by omega⟩
        have hre : d.reltypeOf (decimal e) = some .rst := by rw [(rep_reltype hU).1]; simp [upType, hs, hrU]
        have hne : d.nuclearityOf (decimal e) = some .satellite := by rw [(rep_reltype hU).2]; simp [upType, hs, hrU]
        rw [hspandt f (.inr (by rfl)), if_neg (by simp [hr])]
        obtain ⟨hn1, hn2⟩ := multinuc_split (i := decimal n) hk (fun x hx => (hid x hx).2.1) (by intro x hx; simp at hx; rw [hx, hre]; simp)
        have hn2 := List.perm_singleton.1 hn2
        unfold group2treeMultinuc
        dsimp only
        rw [hn2]
        obtain ⟨ts', c1, c2⟩ := mapE_perm hn1 (b2 f (by omega))
        generalize (d.kids (some (decimal n))).filter (fun c => decide (d.reltypeOf c = some .multinuc)) = nucs at hn1 c1
        cases nucs with
        | nil => have := hn1.length_eq; simp [hheads] at this; omega
        | cons c cs =>
          dsimp only
          rw [c1, except_bind_ok, sortSubtrees_sorted c2 b6 b3 b4, except_bind_ok, (hid c (hn1.mem_iff.1 (by simp))).1]
          have hall : ([decimal e].all (fun c => decide (d.nuclearityOf c = some .satellite))) = true := by simp [hne]
          have hmapE : mapE (d.dt f) [decimal e] = .ok [.node ['S'] (some (decimal e)) [Y]] := mapE_ok.2 (.cons (hdtY f (by omega)) .nil)
          have hmk : ∀ k : DTree → Except PyErr DTree, (mkRel (some tname) (some (decimal n)) ts >>= k) = k (.node tname (some (decimal n)) ts) := fun _ => rfl
          rw [hmk]
          rw [if_neg (by simp), if_pos hall, hmapE, except_bind_ok]
          have hl1 : (DTree.node ['N'] (some (decimal n)) [.node tname (some (decimal n)) ts]).leaves = (Rst.rel tname kids).edus := by
            rw [leaves_node, List.flatMap_cons, List.flatMap_nil, List.append_nil, ← DTree.leaves_plain, hplain, leaves_tree]
          have hl2 : (DTree.node ['S'] (some (decimal e)) [Y]).leaves = U.edus := by
            rw [leaves_node, List.flatMap_cons, List.flatMap_nil, List.append_nil, ← DTree.leaves_plain, hY, leaves_tree]
          have hp1 := hreg.edus_pos
          have hp2 := hregU.edus_pos
          exact orderSchema_one (rep_startsAt hts hreg hrep hl1) (rep_startsAt hts hregU hU hl2) (by omega) (rep_relname hU hs)

end Dg
