import Verif.Lemmas.Exmaralda
import Verif.Lemmas.Span
import Verif.Lemmas.Offsets
import Verif.Props.C08
import Verif.Props.C11
import Verif.Props.C18

namespace Dg
open Dict
namespace DG

theorem bind_ok_split {α β : Type} {x : Except PyErr α} {f : α → Except PyErr β} {b : β} (h : (x >>= f) = .ok b) : ∃ a, x = .ok a ∧ f a = .ok b := by
  cases x with
  | error e => simp [bind, Except.bind] at h
  | ok a => exact ⟨a, rfl, h⟩

theorem exbText_ok {v : Val} {s : List Char} : exbText v = .ok s ↔ v = .atom (.str (String.ofList s)) := by
  constructor
  · intro h
    unfold exbText at h
    split at h
    · obtain rfl := Except.ok.inj h; simp
    · simp at h
  · rintro rfl; simp [exbText]

/-! ### indices of tokens -/

theorem find_tokenIndex (ts : List NodeId) : ∀ (k : Nat) (d : Dict NodeId Nat) (t : NodeId) (i : Nat), ts.Nodup →
    (find (tokenIndex k ts d) t = some i ↔ (∃ j, ts[j]? = some t ∧ i = k + j) ∨ (t ∉ ts ∧ find d t = some i)) := by
  induction ts with
  | nil => intro k d t i _; simp [tokenIndex]
  | cons x ts ih =>
    intro k d t i nd
    obtain ⟨hx, nd⟩ := List.nodup_cons.1 nd
    rw [tokenIndex, ih (k + 1) _ t i nd, find_put]
    constructor
    · rintro (⟨j, hj, rfl⟩ | ⟨h1, h2⟩)
      · exact .inl ⟨j + 1, by simpa using hj, by omega⟩
      · split at h2
        · rename_i e
          exact .inl ⟨0, by simp [e], by have := Option.some.inj h2; omega⟩
        · rename_i e
          exact .inr ⟨by simp [h1]; exact fun h => e h.symm, h2⟩
    · rintro (⟨j, hj, rfl⟩ | ⟨h1, h2⟩)
      · cases j with
        | zero =>
          have e : x = t := by simpa using hj
          exact .inr ⟨by rw [← e]; exact hx, by rw [if_pos e]; rfl⟩
        | succ j => exact .inl ⟨j, by simpa using hj, by omega⟩
      · simp only [List.mem_cons, not_or] at h1
        exact .inr ⟨h1.2, by rw [if_neg (fun h => h1.1 h.symm)]; exact h2⟩

theorem find_index {g : DG} (nd : g.tokens.Nodup) (t : NodeId) (i : Nat) : find (tokenIndex 0 g.tokens []) t = some i ↔ g.tokens[i]? = some t := by
  rw [find_tokenIndex _ _ _ _ _ nd]
  constructor
  · rintro (⟨j, hj, rfl⟩ | ⟨_, h⟩)
    · rw [Nat.zero_add]; exact hj
    · simp [find] at h
  · intro h
    exact .inl ⟨i, h, by omega⟩

/-! ### attributes of tokens -/

theorem boring_iff (a : String) : boringAttrib a = false ↔ ExportedAttrib a := by
  unfold boringAttrib ExportedAttrib
  rw [Bool.or_eq_false_iff]
  simp
  tauto

theorem find_foldAttribs (t : NodeId) (xs : Attrs) : ∀ (d : Dict String (Dict NodeId Val)) (k : String), (keys xs).Nodup →
    find (xs.foldl (addTokenAttribs t) d) k = match find xs k with
      | some v => if boringAttrib k then find d k else some (put ((find d k).getD []) t v)
      | none => find d k := by
  induction xs with
  | nil => intro d k _; rfl
  | cons p xs ih =>
    intro d k nd
    obtain ⟨a, v⟩ := p
    have nd' : a ∉ keys xs ∧ (keys xs).Nodup := List.nodup_cons.1 nd
    rw [List.foldl_cons, ih _ _ nd'.2]
    have hone : find (addTokenAttribs t d (a, v)) k = if a = k then (if boringAttrib k then find d k else some (put ((find d k).getD []) t v)) else find d k := by
      unfold addTokenAttribs
      by_cases hb : boringAttrib a = true
      · simp only [hb, if_true]
        by_cases e : a = k
        · subst e; simp [hb]
        · simp [e]
      · simp only [hb]
        rw [if_neg (by simp), find_put]
        by_cases e : a = k
        · subst e; simp [hb]
        · simp [e]
    by_cases e : a = k
    · subst e
      have : find xs a = none := (find_eq_none_iff _ _).2 nd'.1
      rw [this, hone]
      simp [find]
    · have hf : find ((a, v) :: xs) k = find xs k := by simp [find, e]
      rw [hf, hone, if_neg e]

theorem keys_foldAttribs (t : NodeId) (xs : Attrs) : ∀ (d : Dict String (Dict NodeId Val)), (keys d).Nodup → (keys (xs.foldl (addTokenAttribs t) d)).Nodup := by
  induction xs with
  | nil => intro d h; exact h
  | cons p xs ih =>
    intro d h
    rw [List.foldl_cons]
    apply ih
    unfold addTokenAttribs
    split
    · exact h
    · exact nodup_put h _ _

/-- the collected attributes -/
structure AttribsOf (g : DG) (ts : List NodeId) (D : Dict String (Dict NodeId Val)) : Prop where
  nodup : (keys D).Nodup
  inner : ∀ a x, find D a = some x → (keys x).Nodup ∧ x ≠ []
  find : ∀ a t v, ((find D a).bind (fun x => find x t)) = some v ↔ t ∈ ts ∧ ExportedAttrib a ∧ g.nodeAttr t a = some v

theorem tokenAttribs_ok {g : DG} (hi : Inv g) (ts : List NodeId) : ∀ (done : List NodeId) (d D : Dict String (Dict NodeId Val)), AttribsOf g done d → (done ++ ts).Nodup → g.tokenAttribs ts d = .ok D → AttribsOf g (done ++ ts) D := by
  induction ts with
  | nil =>
    intro done d D h _ he
    obtain rfl := Except.ok.inj he
    rwa [List.append_nil]
  | cons t ts ih =>
    intro done d D h nd he
    rw [tokenAttribs] at he
    cases ha : find g.nodes t with
    | none => rw [ha] at he; simp at he
    | some a =>
      rw [ha] at he
      have nda : (keys a).Nodup := hi.attrs.1 t a ha
      have hna : g.nodeAttrs t = some a := ha
      have htd : t ∉ done := by
        intro hm
        rw [List.nodup_append] at nd
        exact nd.2.2 t hm t (by simp) rfl
      have := ih (done ++ [t]) (a.foldl (addTokenAttribs t) d) D ?_ (by simpa using nd) he
      · simpa using this
      refine ⟨keys_foldAttribs t a d h.nodup, ?_, ?_⟩
      · intro k x hx
        rw [find_foldAttribs t a d k nda] at hx
        cases hk : Dict.find a k with
        | none => rw [hk] at hx; exact h.inner k x hx
        | some v =>
          rw [hk] at hx
          simp only at hx
          split at hx
          · exact h.inner k x hx
          · obtain rfl := Option.some.inj hx
            refine ⟨nodup_put ?_ _ _, ?_⟩
            · cases hd : Dict.find d k with
              | none => simp [keys]
              | some y => exact (h.inner k y hd).1
            · intro he
              have : t ∈ keys (put ((Dict.find d k).getD []) t v) := by rw [mem_keys_iff, find_put]; simp
              rw [he] at this
              simp [keys] at this
      · intro k n v
        have hold := h.find k n v
        rw [find_foldAttribs t a d k nda]
        have hex := boring_iff k
        have hnv : g.nodeAttr t k = Dict.find a k := by unfold nodeAttr; rw [hna]; rfl
        cases hk : Dict.find a k with
        | none =>
          simp only
          rw [hold]
          simp only [List.mem_append, List.mem_singleton]
          constructor
          · rintro ⟨h1, h2⟩; exact ⟨.inl h1, h2⟩
          · rintro ⟨h1 | rfl, h2, h3⟩
            · exact ⟨h1, h2, h3⟩
            · rw [hnv, hk] at h3; simp at h3
        | some w =>
          simp only
          by_cases hb : boringAttrib k = true
          · rw [if_pos hb, hold]
            have : ¬ ExportedAttrib k := by rw [← hex, hb]; simp
            simp [this]
          · rw [if_neg hb]
            have hexp : ExportedAttrib k := hex.1 (by simpa using hb)
            simp only [Option.bind_some, find_put]
            by_cases e : t = n
            · subst e
              rw [if_pos rfl, hnv, hk]
              simp [hexp]
            · rw [if_neg e]
              have h2 : Dict.find ((Dict.find d k).getD []) n = (Dict.find d k).bind (fun x => Dict.find x n) := by
                cases Dict.find d k <;> rfl
              rw [h2, hold]
              simp only [List.mem_append, List.mem_singleton]
              have e' : ¬ n = t := fun h => e h.symm
              simp [e']

theorem attribsOf_nil (g : DG) : AttribsOf g [] [] := ⟨by simp [keys], by intro a x h; simp [Dict.find] at h, by intro a t v; simp [Dict.find]⟩

/-- the token tier -/
theorem exbTokenEvents_ok {g : DG} (ts : List NodeId) : ∀ (i : Nat) (es : List ExbEvent), g.exbTokenEvents i ts = .ok es →
    ∃ strs : List String, List.Forall₂ g.TokenStr ts strs ∧ es = (strs.zipIdx i).map (fun p => XEvent.exb ⟨p.2, p.2 + 1, some p.1.toList⟩) := by
  induction ts with
  | nil => intro i es h; obtain rfl := Except.ok.inj h; exact ⟨[], .nil, rfl⟩
  | cons t ts ih =>
    intro i es h
    rw [exbTokenEvents] at h
    obtain ⟨v, h1, h⟩ := bind_ok_split h
    obtain ⟨s, h2, h⟩ := bind_ok_split h
    obtain ⟨es', h3, h⟩ := bind_ok_split h
    obtain rfl := Except.ok.inj h
    obtain ⟨strs, hs, rfl⟩ := ih _ _ h3
    obtain rfl := exbText_ok.1 h2
    refine ⟨String.ofList s :: strs, .cons (getAttr_ok.1 h1) hs, ?_⟩
    simp [XEvent.exb, List.zipIdx_cons]

/-- one attribute -/
theorem attribEvents_ok {g : DG} (nd : g.tokens.Nodup) {a : String} {x : Dict NodeId Val} (hx : (keys x).Nodup) (hf : ∀ t v, find x t = some v ↔ t ∈ g.tokens ∧ g.nodeAttr t a = some v)
    {es : List ExbEvent} (h : mapE (exbAttribEvent (tokenIndex 0 g.tokens [])) x = .ok es) (c : Nat) : ∃ t : XTier, t.exb = ⟨exbTie c, lastPart a, ['t'], '[' :: a.toList ++ [']'], es⟩ ∧ g.AttribTier a t := by
  rw [mapE_ok] at h
  have hone : ∀ (p : NodeId × Val) (e : ExbEvent), exbAttribEvent (tokenIndex 0 g.tokens []) p = .ok e → ∃ i s, g.tokens[i]? = some p.1 ∧ p.2 = .atom (.str (String.ofList s)) ∧ e = XEvent.exb ⟨i, i + 1, some s⟩ := by
    intro p e he
    unfold exbAttribEvent at he
    split at he
    · simp at he
    · rename_i i hi
      obtain ⟨s, h2, h⟩ := bind_ok_split he
      obtain rfl := Except.ok.inj h
      exact ⟨i, s, (find_index nd _ _).1 hi, exbText_ok.1 h2, rfl⟩
  have key : ∀ (y : Dict NodeId Val) (es : List ExbEvent), (keys y).Nodup → List.Forall₂ (fun p e => exbAttribEvent (tokenIndex 0 g.tokens []) p = .ok e) y es →
      ∃ xs : List XEvent, xs.map XEvent.exb = es ∧ List.Forall₂ (fun p e => g.tokens[e.a]? = some p.1 ∧ e.b = e.a + 1 ∧ ∃ s, p.2 = .atom (.str (String.ofList s)) ∧ e.text = some s) y xs := by
    intro y es _ h
    induction h with
    | nil => exact ⟨[], rfl, .nil⟩
    | @cons p e y es h1 _ ih =>
      rename_i hnd
      obtain ⟨xs, rfl, hxs⟩ := ih (List.nodup_cons.1 hnd).2
      obtain ⟨i, s, a1, a2, rfl⟩ := hone p e h1
      exact ⟨⟨i, i + 1, some s⟩ :: xs, rfl, .cons ⟨a1, rfl, s, a2, rfl⟩ hxs⟩
  obtain ⟨xs, rfl, hxs⟩ := key x es hx h
  refine ⟨⟨exbTie c, lastPart a, ['t'], '[' :: a.toList ++ [']'], xs⟩, rfl, rfl, rfl, rfl, ?_, ?_, ?_⟩
  · show xs.Nodup
    clear h hf
    induction hxs with
    | nil => exact .nil
    | @cons p e y xs h1 h2 ih =>
      have hnd := List.nodup_cons.1 hx
      refine List.nodup_cons.2 ⟨?_, ih hnd.2⟩
      intro hm
      obtain ⟨q, hq, hq2⟩ := forall₂_mem_right h2 hm
      apply hnd.1
      have : q.1 = p.1 := by
        have := h1.1.symm.trans hq2.1
        exact (Option.some.inj this).symm
      show p.1 ∈ y.map Prod.fst
      rw [← this]
      exact List.mem_map_of_mem hq
  · intro e
    constructor
    · intro he
      obtain ⟨q, hq, hq1, hq2, s, hq3, hq4⟩ := forall₂_mem_right hxs he
      obtain ⟨n, v⟩ := q
      have := (hf n v).1 (mem_find hx hq)
      exact ⟨n, String.ofList s, hq1, by rw [this.2, ← hq3], hq2, by rw [hq4]; simp⟩
    · rintro ⟨n, s, h1, h2, h3, h4⟩
      have hm := find_some_mem ((hf n (.atom (.str s))).2 ⟨List.mem_of_getElem? h1, h2⟩)
      obtain ⟨e', he', hq1, hq2, s', hq3, hq4⟩ := forall₂_mem_left hxs hm
      have : e = e' := by
        obtain ⟨ea, eb, et⟩ := e
        obtain ⟨ea', eb', et'⟩ := e'
        simp only at h1 h3 h4 hq1 hq2 hq4 hq3
        have e1 : ea = ea' := by
          have hlt : ea < g.tokens.length := by
            rw [List.getElem?_eq_some_iff] at h1; exact h1.1
          exact (List.getElem?_inj hlt nd).1 (h1.trans hq1.symm)
        subst e1
        rw [h3, hq2, h4, hq4]
        have : s = String.ofList s' := by
          injection hq3 with hq3; injection hq3
        rw [this]
        simp
      rw [this]
      exact he'
  · intro n hn v hv
    obtain ⟨_, _, _, _, s, hs, _⟩ := forall₂_mem_left hxs (find_some_mem ((hf n v).2 ⟨hn, hv⟩))
    exact ⟨_, hs⟩

theorem exbAttribTiers_ok {g : DG} (nd : g.tokens.Nodup) (D : Dict String (Dict NodeId Val)) :
    ∀ (c : Nat) (ts : List ExbTier), (∀ p ∈ D, (keys p.2).Nodup ∧ ∀ t v, find p.2 t = some v ↔ t ∈ g.tokens ∧ g.nodeAttr t p.1 = some v) →
    exbAttribTiers (tokenIndex 0 g.tokens []) c D = .ok ts → ∃ xs : List XTier, ts = xs.map XTier.exb ∧ List.Forall₂ (fun a t => g.AttribTier a t) (keys D) xs ∧ xs.map XTier.id = (List.range' c xs.length).map exbTie := by
  induction D with
  | nil => intro c ts _ h; obtain rfl := Except.ok.inj h; exact ⟨[], rfl, .nil, rfl⟩
  | cons p D ih =>
    intro c ts hD h
    obtain ⟨a, x⟩ := p
    rw [exbAttribTiers] at h
    obtain ⟨es, h1, h⟩ := bind_ok_split h
    obtain ⟨ts', h2, h⟩ := bind_ok_split h
    obtain rfl := Except.ok.inj h
    obtain ⟨xs, rfl, hxs, hid⟩ := ih (c + 1) ts' (fun p hp => hD p (List.mem_cons_of_mem _ hp)) h2
    have hh := hD (a, x) (by simp)
    obtain ⟨t, ht, hta⟩ := attribEvents_ok nd hh.1 hh.2 h1 c
    refine ⟨t :: xs, by rw [List.map_cons, ht], .cons hta hxs, ?_⟩
    have : t.id = exbTie c := by
      have := congrArg ExbTier.id ht
      exact this
    rw [List.map_cons, this, hid, List.length_cons, List.range'_succ, List.map_cons]

theorem exbSpan_event {g : DG} (wf : WF g) (nd : g.tokens.Nodup) (ho : g.NaturalTokens) {fuel : Nat} {n : NodeId} {span : List NodeId} (h : g.getSpan fuel n = .ok span) {a b : Nat}
    (he : exbSpan (tokenIndex 0 g.tokens []) span = .ok (a, b)) (txt : Option (List Char)) : g.EventOf n ⟨a, b, txt⟩ := by
  have hmem := getSpan_mem wf fuel n span h
  have hs := getSpan_sorted h
  unfold exbSpan at he
  split at he
  · rename_i i j hi hj
    have hab := Except.ok.inj he
    have ea : i = a := congrArg Prod.fst hab
    have eb : j + 1 = b := congrArg Prod.snd hab
    obtain ⟨x, hx, hxi⟩ := Option.bind_eq_some_iff.1 hi
    obtain ⟨y, hy, hyj⟩ := Option.bind_eq_some_iff.1 hj
    rw [find_index nd] at hxi hyj
    have hxm : x ∈ span := List.mem_of_mem_head? hx
    have hym : y ∈ span := List.mem_of_getLast? hy
    have hxle : ∀ m ∈ span, m ≠ x → naturalLe x m = true := by
      intro m hm hne
      cases span with
      | nil => simp at hm
      | cons z zs =>
        have : z = x := by simpa using hx
        subst this
        rcases List.mem_cons.1 hm with rfl | hm
        · exact absurd rfl hne
        · exact List.rel_of_pairwise_cons hs hm
    have hley : ∀ m ∈ span, m ≠ y → naturalLe m y = true := by
      intro m hm hne
      obtain ⟨pre, rfl⟩ := List.getLast?_eq_some_iff.1 hy
      rcases List.mem_append.1 hm with hm | hm
      · exact (List.pairwise_append.1 hs).2.2 m hm y (by simp)
      · exact absurd (by simpa using hm) hne
    have hord : ∀ (p q : Nat) (u v : NodeId), g.tokens[p]? = some u → g.tokens[q]? = some v → p < q → naturalLe v u = false := by
      intro p q u v hu hv hpq
      obtain ⟨hp1, rfl⟩ := List.getElem?_eq_some_iff.1 hu
      obtain ⟨hq1, rfl⟩ := List.getElem?_eq_some_iff.1 hv
      exact List.pairwise_iff_getElem.1 ho p q hp1 hq1 hpq
    refine ⟨⟨x, by rw [← ea]; exact hxi, (hmem x).1 hxm⟩, ⟨y, j, eb.symm, hyj, (hmem y).1 hym⟩, ?_⟩
    intro m k hk ht hsp
    have hm := (hmem m).2 ⟨ht, hsp⟩
    show a ≤ k ∧ k < b
    subst ea eb
    constructor
    · by_cases e : m = x
      · subst e
        have hlt : i < g.tokens.length := (List.getElem?_eq_some_iff.1 hxi).1
        have := (List.getElem?_inj hlt nd).1 (hxi.trans hk.symm)
        omega
      · by_contra hlt
        have := hord k i m x hk hxi (by omega)
        rw [hxle m hm e] at this
        simp at this
    · by_cases e : m = y
      · subst e
        have hlt : j < g.tokens.length := (List.getElem?_eq_some_iff.1 hyj).1
        have := (List.getElem?_inj hlt nd).1 (hyj.trans hk.symm)
        omega
      · by_contra hlt
        have := hord j k y m hyj hk (by omega)
        rw [hley m hm e] at this
        simp at this
  · simp at he

theorem labelOf_ok {g : DG} {n : NodeId} {v : Val} (h : g.labelOf n = .ok v) : (g.nodeAttr n "label").getD (.atom (.str "")) = v := by
  unfold labelOf at h
  split at h
  · simp at h
  · rename_i a ha
    obtain rfl := Except.ok.inj h
    unfold nodeAttr
    rw [show g.nodeAttrs n = some a from ha]
    rfl

/-- one node: no event iff no tokens below -/
theorem exbNodeEvent_ok {g : DG} (wf : WF g) (nd : g.tokens.Nodup) (ho : g.NaturalTokens) {fuel : Nat} {n : NodeId} {r : Option ExbEvent} (h : g.exbNodeEvent fuel (tokenIndex 0 g.tokens []) n = .ok r) :
    (r = none ∧ ¬ ∃ m, g.IsToken m ∧ g.Spans n m) ∨ (∃ e : XEvent, r = some e.exb ∧ (∃ m, g.IsToken m ∧ g.Spans n m) ∧ g.EventOf n e ∧ ∃ s, e.text = some s ∧ g.LabelOf n s) := by
  unfold exbNodeEvent at h
  obtain ⟨span, h1, h⟩ := bind_ok_split h
  have hmem := getSpan_mem wf fuel n span h1
  split at h
  · rename_i e
    obtain rfl := Except.ok.inj h
    subst e
    refine .inl ⟨rfl, ?_⟩
    rintro ⟨m, hm⟩
    have := (hmem m).2 hm
    simp at this
  · rename_i hne
    obtain ⟨⟨a, b⟩, h2, h⟩ := bind_ok_split h
    obtain ⟨v, h3, h⟩ := bind_ok_split h
    obtain ⟨s, h4, h⟩ := bind_ok_split h
    obtain rfl := Except.ok.inj h
    refine .inr ⟨⟨a, b, some s⟩, rfl, ?_, exbSpan_event wf nd ho h1 h2 _, s, rfl, ?_⟩
    · obtain ⟨x, hx⟩ := List.exists_mem_of_ne_nil _ hne
      exact ⟨x, (hmem x).1 hx⟩
    · unfold LabelOf
      rw [labelOf_ok h3]
      exact exbText_ok.1 h4

theorem exbLayerTier_ok {g : DG} (hr : Reachable g) (hl : AllLayered g) (nd : g.tokens.Nodup) (ho : g.NaturalTokens) {fuel c : Nat} {l : String} {t : ExbTier}
    (h : g.exbLayerTier fuel (tokenIndex 0 g.tokens []) c l = .ok t) : ∃ x : XTier, x.exb = t ∧ g.LayerTier l x ∧ x.id = exbTie c := by
  unfold exbLayerTier at h
  obtain ⟨ids, hsel, hnd, _, hmem⟩ := c08_select_nodes_by_layer g hr hl (.one l)
  simp only [hsel] at h
  obtain ⟨es, h1, h⟩ := bind_ok_split h
  obtain ⟨es', h2, h⟩ := bind_ok_split h
  obtain rfl := Except.ok.inj h
  have e2 : es' = es := (Except.ok.inj (show Except.ok es = Except.ok es' from h2)).symm
  subst e2
  rw [mapE_ok] at h1
  have key : ∀ (ids : List NodeId) (es : List (Option ExbEvent)), List.Forall₂ (fun n r => g.exbNodeEvent fuel (tokenIndex 0 g.tokens []) n = .ok r) ids es →
      ∃ (ns : List NodeId) (xs : List XEvent), ns.Sublist ids ∧ (∀ n ∈ ids, n ∈ ns ↔ ∃ m, g.IsToken m ∧ g.Spans n m) ∧ es.filterMap id = xs.map XEvent.exb ∧
        List.Forall₂ (fun n e => g.EventOf n e ∧ ∃ s, e.text = some s ∧ g.LabelOf n s) ns xs := by
    intro ids es h
    induction h with
    | nil => exact ⟨[], [], .slnil, by simp, rfl, .nil⟩
    | @cons n r ids es h1 _ ih =>
      obtain ⟨ns, xs, hsub, hiff, hmap, hf⟩ := ih
      have hin : ∀ m ∈ ns, ∃ k, g.IsToken k ∧ g.Spans m k := by
        intro m hm
        exact (hiff m (hsub.subset hm)).1 hm
      rcases exbNodeEvent_ok hr.inv.wf nd ho h1 with ⟨rfl, hno⟩ | ⟨e, rfl, hyes, hev⟩
      · refine ⟨ns, xs, hsub.cons _, ?_, by simpa using hmap, hf⟩
        intro m hm
        rcases List.mem_cons.1 hm with rfl | hm
        · exact ⟨fun h => hin m h, fun h => absurd h hno⟩
        · exact hiff m hm
      · refine ⟨n :: ns, e :: xs, hsub.cons_cons _, ?_, by rw [List.filterMap_cons, List.map_cons, ← hmap]; rfl, .cons hev hf⟩
        intro m hm
        rcases List.mem_cons.1 hm with rfl | hm
        · exact ⟨fun _ => hyes, fun _ => by simp⟩
        · rw [List.mem_cons, hiff m hm]
          constructor
          · rintro (rfl | h)
            · exact hyes
            · exact h
          · exact .inr
  obtain ⟨ns, xs, hsub, hiff, hmap, hf⟩ := key ids es' h1
  refine ⟨⟨exbTie c, lastPart l, ['t'], '[' :: l.toList ++ [']'], xs⟩, ?_, ⟨rfl, rfl, rfl, ns, hsub.nodup hnd, ?_, hf⟩, rfl⟩
  · unfold XTier.exb
    rw [hmap]
  · intro n
    constructor
    · intro hn
      have hni := hsub.subset hn
      exact ⟨((hmem n).1 hni).2, (hiff n hni).1 hn⟩
    · rintro ⟨h1, h2⟩
      have hh : g.HasNode n := by
        obtain ⟨a, ha, _⟩ := h1
        exact (hasNode_some g n).2 ⟨a, ha⟩
      exact (hiff n ((hmem n).2 ⟨hh, h1⟩)).2 h2

theorem exbLayerTiers_ok {g : DG} (hr : Reachable g) (hl : AllLayered g) (nd : g.tokens.Nodup) (ho : g.NaturalTokens) {fuel : Nat} (ls : List String) : ∀ (c : Nat) (ts : List ExbTier),
    g.exbLayerTiers fuel (tokenIndex 0 g.tokens []) c ls = .ok ts → ∃ xs : List XTier, ts = xs.map XTier.exb ∧ List.Forall₂ (fun l t => g.LayerTier l t) ls xs ∧ xs.map XTier.id = (List.range' c xs.length).map exbTie := by
  induction ls with
  | nil => intro c ts h; obtain rfl := Except.ok.inj h; exact ⟨[], rfl, .nil, rfl⟩
  | cons l ls ih =>
    intro c ts h
    rw [exbLayerTiers] at h
    obtain ⟨t, h1, h⟩ := bind_ok_split h
    obtain ⟨ts', h2, h⟩ := bind_ok_split h
    obtain rfl := Except.ok.inj h
    obtain ⟨x, rfl, hx, hid⟩ := exbLayerTier_ok hr hl nd ho h1
    obtain ⟨xs, rfl, hxs, hids⟩ := ih _ _ h2
    exact ⟨x :: xs, rfl, .cons hx hxs, by rw [List.map_cons, hid, hids, List.length_cons, List.range'_succ, List.map_cons]⟩

theorem exbChainEvents_ok {g : DG} (wf : WF g) (nd : g.tokens.Nodup) (ho : g.NaturalTokens) {fuel i len : Nat} (ns : List NodeId) : ∀ (j : Nat) (es : List ExbEvent),
    g.exbChainEvents fuel (tokenIndex 0 g.tokens []) i len j ns = .ok es → ∃ (ps : List (NodeId × Nat)) (xs : List XEvent), es = xs.map XEvent.exb ∧ ps.Sublist (ns.zipIdx j) ∧
      (∀ q ∈ ns.zipIdx j, q ∈ ps ↔ ∃ m, g.IsToken m ∧ g.Spans q.1 m) ∧
      List.Forall₂ (fun q e => g.EventOf q.1 e ∧ e.text = some ("chain_".toList ++ decimal i ++ [':', ' '] ++ decimal (len - q.2) ++ '/' :: decimal len)) ps xs := by
  induction ns with
  | nil => intro j es h; obtain rfl := Except.ok.inj h; exact ⟨[], [], rfl, .slnil, by simp, .nil⟩
  | cons n ns ih =>
    intro j es h
    rw [exbChainEvents] at h
    obtain ⟨span, h1, h⟩ := bind_ok_split h
    have hmem := getSpan_mem wf fuel n span h1
    rw [List.zipIdx_cons]
    split at h
    · rename_i e
      subst e
      obtain ⟨ps, xs, rfl, hsub, hiff, hf⟩ := ih _ _ h
      have hno : ¬ ∃ m, g.IsToken m ∧ g.Spans n m := by
        rintro ⟨m, hm⟩
        have := (hmem m).2 hm
        simp at this
      refine ⟨ps, xs, rfl, hsub.cons _, ?_, hf⟩
      intro q hq
      rcases List.mem_cons.1 hq with rfl | hq
      · exact ⟨fun hm => (hiff _ (hsub.subset hm)).1 hm, fun h => absurd h hno⟩
      · exact hiff q hq
    · rename_i hne
      obtain ⟨⟨a, b⟩, h2, h⟩ := bind_ok_split h
      obtain ⟨es', h3, h⟩ := bind_ok_split h
      obtain rfl := Except.ok.inj h
      obtain ⟨ps, xs, rfl, hsub, hiff, hf⟩ := ih _ _ h3
      have hyes : ∃ m, g.IsToken m ∧ g.Spans n m := by
        obtain ⟨x, hx⟩ := List.exists_mem_of_ne_nil _ hne
        exact ⟨x, (hmem x).1 hx⟩
      refine ⟨(n, j) :: ps, ⟨a, b, some (exbChainLabel i j len)⟩ :: xs, rfl, hsub.cons_cons _, ?_, .cons ⟨exbSpan_event wf nd ho h1 h2 _, rfl⟩ hf⟩
      intro q hq
      rcases List.mem_cons.1 hq with rfl | hq
      · exact ⟨fun _ => hyes, fun _ => by simp⟩
      · rw [List.mem_cons, hiff q hq]
        constructor
        · rintro (rfl | h)
          · exact hyes
          · exact h
        · exact .inr

theorem exbChainTiers_ok {g : DG} (wf : WF g) (nd : g.tokens.Nodup) (ho : g.NaturalTokens) {fuel : Nat} (chs : List (List NodeId)) : ∀ (c i : Nat) (ts : List ExbTier),
    g.exbChainTiers fuel (tokenIndex 0 g.tokens []) c i chs = .ok ts → ∃ (xs : List XTier), ts = xs.map XTier.exb ∧
      List.Forall₂ (fun p t => g.ChainTier p t ∧ t.id = exbTie (c + p.2 - i)) ((chs.zipIdx i).filter (fun p => 3 ≤ p.1.length)) xs := by
  induction chs with
  | nil => intro c i ts h; obtain rfl := Except.ok.inj h; exact ⟨[], rfl, .nil⟩
  | cons ch chs ih =>
    intro c i ts h
    rw [exbChainTiers] at h
    rw [List.zipIdx_cons, List.filter_cons]
    have hshift : ∀ (xs : List XTier), List.Forall₂ (fun p t => g.ChainTier p t ∧ t.id = exbTie (c + 1 + p.2 - (i + 1))) ((chs.zipIdx (i + 1)).filter (fun p => 3 ≤ p.1.length)) xs →
        List.Forall₂ (fun p t => g.ChainTier p t ∧ t.id = exbTie (c + p.2 - i)) ((chs.zipIdx (i + 1)).filter (fun p => 3 ≤ p.1.length)) xs := by
      intro xs hx
      refine List.Forall₂.imp ?_ hx
      rintro p t ⟨h1, h2⟩
      refine ⟨h1, ?_⟩
      rw [h2]
      congr 1
      omega
    split at h
    · rename_i hlt
      rw [if_neg (by simpa using hlt)]
      obtain ⟨xs, rfl, hf⟩ := ih _ _ _ h
      exact ⟨xs, rfl, hshift xs hf⟩
    · rename_i hlt
      rw [if_pos (by simpa using hlt)]
      obtain ⟨es, h1, h⟩ := bind_ok_split h
      obtain ⟨ts', h2, h⟩ := bind_ok_split h
      obtain rfl := Except.ok.inj h
      obtain ⟨ps, ys, rfl, hsub, hiff, hf⟩ := exbChainEvents_ok wf nd ho ch 0 es h1
      obtain ⟨xs, rfl, hfx⟩ := ih _ _ _ h2
      refine ⟨⟨exbTie c, ['c', 'h', 'a', 'i', 'n'], ['t'], "[coref-chain-".toList ++ decimal i ++ [']'], ys⟩ :: xs, rfl, .cons ⟨⟨rfl, rfl, rfl, ps, hsub, hiff, hf⟩, ?_⟩ (hshift xs hfx)⟩
      show exbTie c = exbTie (c + i - i)
      congr 1
      omega

theorem nodup_foldSetAdd (ls : List Atom) : ∀ acc : List Atom, acc.Nodup → (ls.foldl setAdd acc).Nodup := by
  induction ls with
  | nil => intro acc h; exact h
  | cons l ls ih => intro acc h; exact ih _ (nodup_setAdd h l)

theorem collectLayers_nodup (as : List Attrs) : ∀ (acc r : List Atom), acc.Nodup → collectLayers as acc = .ok r → r.Nodup := by
  induction as with
  | nil => intro acc r h e; obtain rfl := Except.ok.inj e; exact h
  | cons a as ih =>
    intro acc r h e
    rw [collectLayers] at e
    obtain ⟨v, _, e⟩ := bind_ok_split e
    obtain ⟨ls, _, e⟩ := bind_ok_split e
    refine ih _ r (nodup_foldSetAdd ls acc h) e

theorem getAnnotationLayers_nodup {g : DG} {r : List Atom} (h : g.getAnnotationLayers = .ok r) : r.Nodup := by
  unfold getAnnotationLayers at h
  obtain ⟨ns, h1, h⟩ := bind_ok_split h
  obtain ⟨es, h2, h⟩ := bind_ok_split h
  obtain rfl := Except.ok.inj h
  exact nodup_setUnion (collectLayers_nodup _ _ _ .nil h1) (collectLayers_nodup _ _ _ .nil h2)

theorem exbLayers_ok {rr : Bool} (ls : List Atom) : ∀ (r : List String), exbLayers rr ls = .ok r → (ls.Nodup → r.Nodup) ∧ ∀ l, l ∈ r ↔ .str l ∈ ls ∧ (rr = true → isInformative l = true) := by
  induction ls with
  | nil => intro r h; obtain rfl := Except.ok.inj h; simp
  | cons x ls ih =>
    intro r h
    cases x with
    | str s =>
      rw [exbLayers] at h
      obtain ⟨rest, h1, h⟩ := bind_ok_split h
      obtain ⟨ih1, ih2⟩ := ih rest h1
      have hc : ((!rr || isInformative s) = true) ↔ (rr = true → isInformative s = true) := by
        cases rr <;> simp
      have h := Except.ok.inj h
      by_cases hi : (!rr || isInformative s) = true
      · rw [if_pos hi] at h
        subst h
        refine ⟨fun hn => ?_, ?_⟩
        · obtain ⟨hx, hn⟩ := List.nodup_cons.1 hn
          exact List.nodup_cons.2 ⟨fun hm => hx ((ih2 s).1 hm).1, ih1 hn⟩
        · intro l
          rw [List.mem_cons, List.mem_cons, ih2]
          constructor
          · rintro (rfl | ⟨h1, h2⟩)
            · exact ⟨.inl rfl, hc.1 hi⟩
            · exact ⟨.inr h1, h2⟩
          · rintro ⟨h1 | h1, h2⟩
            · injection h1 with h1; exact .inl h1
            · exact .inr ⟨h1, h2⟩
      · rw [if_neg hi] at h
        subst h
        refine ⟨fun hn => ih1 (List.nodup_cons.1 hn).2, ?_⟩
        intro l
        rw [List.mem_cons, ih2]
        constructor
        · rintro ⟨h1, h2⟩; exact ⟨.inr h1, h2⟩
        · rintro ⟨h1 | h1, h2⟩
          · injection h1 with h1; subst h1; exact absurd (hc.2 h2) hi
          · exact ⟨h1, h2⟩
    | none => simp [exbLayers] at h
    | int _ => simp [exbLayers] at h
    | other _ => simp [exbLayers] at h

end DG
end Dg
