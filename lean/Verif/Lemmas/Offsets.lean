import Verif.Spec.Offsets
import Verif.Lemmas.Text
import Verif.Lemmas.SetAttr

namespace Dg
open Dict
namespace DG

theorem token_ne_onset (n m : String) : qual n "token" ≠ qual m "onset" := qual_ne' (by decide) (by decide) (by decide)
theorem token_ne_offset (n m : String) : qual n "token" ≠ qual m "offset" := qual_ne' (by decide) (by decide) (by decide)
theorem onset_ne_offset (n : String) : qual n "onset" ≠ qual n "offset" := by
  intro h
  have h1 := congrArg String.toList h
  simp only [qual, String.toList_append] at h1
  have := congrArg List.length h1
  simp at this

theorem OnlyOffsetsChanged.refl (g : DG) (ns : String) (ts : List NodeId) : OnlyOffsetsChanged g g ns ts :=
  ⟨rfl, fun _ _ _ _ => rfl, fun _ _ => rfl, rfl, SameMeta.refl g⟩

theorem OnlyOffsetsChanged.trans {g1 g2 g3 : DG} {ns : String} {ts ts' : List NodeId} (h : OnlyOffsetsChanged g1 g2 ns ts)
    (h' : OnlyOffsetsChanged g2 g3 ns ts') : OnlyOffsetsChanged g1 g3 ns (ts ++ ts') :=
  ⟨h'.nodes.trans h.nodes, fun n k h1 h2 => (h'.attrs n k h1 h2).trans (h.attrs n k h1 h2),
    fun n hn => (h'.others n (fun x => hn (List.mem_append_right _ x))).trans (h.others n (fun x => hn (List.mem_append_left _ x))),
    h'.edges.trans h.edges, SameMeta.trans h.rest h'.rest⟩

theorem OnlyOffsetsChanged.mono {g1 g2 : DG} {ns : String} {ts ts' : List NodeId} (h : OnlyOffsetsChanged g1 g2 ns ts)
    (hs : ∀ t ∈ ts, t ∈ ts') : OnlyOffsetsChanged g1 g2 ns ts' :=
  ⟨h.nodes, h.attrs, fun n hn => h.others n (fun x => hn (hs n x)), h.edges, h.rest⟩

theorem OnlyOffsetsChanged.tokenStr {g g' : DG} {ns : String} {ts : List NodeId} (h : OnlyOffsetsChanged g g' ns ts) (t : NodeId) (s : String) :
    g'.TokenStr t s ↔ g.TokenStr t s := by
  unfold TokenStr
  have := h.attrs t (qual g.ns "token") (token_ne_onset _ _) (token_ne_offset _ _)
  unfold qual at this
  rw [h.rest.2.1, this]

theorem OnlyOffsetsChanged.hasTokens {g g' : DG} {ns : String} {ts : List NodeId} (h : OnlyOffsetsChanged g g' ns ts) (strs : List String) :
    g'.HasTokens strs ↔ g.HasTokens strs := by
  unfold HasTokens
  rw [h.rest.2.2.2.1]
  have : g'.TokenStr = g.TokenStr := by
    funext t s; exact propext (h.tokenStr t s)
  rw [this]

theorem setOffsets_spec {g : DG} {t : NodeId} {a : Attrs} (h : g.nodeAttrs t = some a) (ns : String) (on off : Nat) :
    ∃ g', g.setOffsets ns t on off = .ok g' ∧ OnlyOffsetsChanged g g' ns [t] ∧ g'.OffsetsAt ns t on off := by
  have e1 := setAttr_ok h (qual ns "onset") (.atom (.int on))
  obtain ⟨f1, f2, f3⟩ := setAttr_frame e1
  have hn : ∃ a', (({ g with nodes := Dict.put g.nodes t (Dict.put a (qual ns "onset") (.atom (.int on))) } : DG)).nodeAttrs t = some a' :=
    ⟨_, by unfold nodeAttrs; simp only [find_put, if_true]; rfl⟩
  obtain ⟨a', ha'⟩ := hn
  have e2 := setAttr_ok ha' (qual ns "offset") (.atom (.int off))
  obtain ⟨k1, k2, k3⟩ := setAttr_frame e2
  refine ⟨_, ?_, ⟨k1.trans f1, ?_, ?_, k2.trans f2, SameMeta.trans f3 k3⟩, ?_⟩
  · unfold setOffsets
    rw [e1]
    exact e2
  · intro n k hk1 hk2
    rw [nodeAttr_setAttr e2, if_neg (fun x => hk2 x.2), nodeAttr_setAttr e1, if_neg (fun x => hk1 x.2)]
  · intro n hn
    simp only [List.mem_singleton] at hn
    rw [nodeAttrs_setAttr e2 n hn, nodeAttrs_setAttr e1 n hn]
  · unfold OffsetsAt
    have hne := onset_ne_offset ns
    constructor
    · show nodeAttr _ t (qual ns "onset") = _
      rw [nodeAttr_setAttr e2, if_neg (fun x => hne x.2), nodeAttr_setAttr e1, if_pos ⟨rfl, rfl⟩]
    · show nodeAttr _ t (qual ns "offset") = _
      rw [nodeAttr_setAttr e2, if_pos ⟨rfl, rfl⟩]

theorem startOf_zero (ss : List String) : startOf ss 0 = 0 := by simp [startOf]
theorem startOf_cons (s : String) (ss : List String) (i : Nat) : startOf (s :: ss) (i + 1) = s.toList.length + 1 + startOf ss i := by
  simp [startOf]
theorem endOf_zero (s : String) (ss : List String) : endOf (s :: ss) 0 = s.toList.length := by simp [endOf, startOf_zero]
theorem endOf_cons (s : String) (ss : List String) (i : Nat) : endOf (s :: ss) (i + 1) = s.toList.length + 1 + endOf ss i := by
  simp only [endOf, startOf_cons, List.getD_cons_succ]; omega

theorem addOffsetsLoop_spec (ns : String) (ts : List NodeId) : ∀ (g : DG) (onset : Nat) (ss : List String),
    List.Forall₂ g.TokenStr ts ss → ts.Nodup →
    ∃ g', addOffsetsLoop ns g onset ts = (g', none) ∧ OnlyOffsetsChanged g g' ns ts ∧
      ∀ i t, ts[i]? = some t → g'.OffsetsAt ns t (onset + startOf ss i) (onset + endOf ss i) := by
  induction ts with
  | nil =>
    intro g onset ss _ _
    exact ⟨g, rfl, OnlyOffsetsChanged.refl _ _ _, by simp⟩
  | cons t ts ih =>
    intro g onset ss hf nd
    cases hf with
    | @cons _ s _ ss hts hrest =>
      rw [List.nodup_cons] at nd
      obtain ⟨a, ha⟩ := nodeAttr_hasNode hts
      obtain ⟨g1, e1, o1, at1⟩ := setOffsets_spec ha ns onset (onset + s.toList.length)
      have hrest' : List.Forall₂ g1.TokenStr ts ss := by
        have : g1.TokenStr = g.TokenStr := by funext x y; exact propext (o1.tokenStr x y)
        rw [this]; exact hrest
      obtain ⟨g2, e2, o2, at2⟩ := ih g1 (onset + s.toList.length + 1) ss hrest' nd.2
      refine ⟨g2, ?_, o1.trans o2, ?_⟩
      · have htok : g.getToken t = .ok (.atom (.str s)) := getAttr_ok.2 hts
        unfold addOffsetsLoop
        rw [htok]
        show (match g.setOffsets ns t onset (onset + s.toList.length) with | _ => _) = _
        rw [e1]
        exact e2
      · intro i t' hi
        cases i with
        | zero =>
          simp at hi; subst hi
          rw [startOf_zero, endOf_zero]
          unfold OffsetsAt nodeAttr at at1 ⊢
          rw [o2.others t nd.1]
          exact at1
        | succ i =>
          have := at2 i t' (by simpa using hi)
          rw [startOf_cons, endOf_cons]
          rw [show onset + (s.toList.length + 1 + startOf ss i) = onset + s.toList.length + 1 + startOf ss i by omega,
            show onset + (s.toList.length + 1 + endOf ss i) = onset + s.toList.length + 1 + endOf ss i by omega]
          exact this

theorem tokenStrings_ok {g : DG} {ts : List NodeId} {ss : List String} : g.tokenStrings ts = .ok ss ↔ List.Forall₂ g.TokenStr ts ss := by
  induction ts generalizing ss with
  | nil => cases ss <;> simp [tokenStrings]
  | cons t ts ih =>
    unfold tokenStrings
    have hto : ∀ s, g.TokenStr t s ↔ g.getToken t = .ok (.atom (.str s)) := fun s => getAttr_ok.symm
    constructor
    · intro h
      cases h1 : g.getToken t with
      | error e => rw [h1] at h; simp [bind, Except.bind] at h
      | ok v =>
        rw [h1] at h
        simp only [bind, Except.bind] at h
        cases h2 : asString v with
        | error e => rw [h2] at h; simp at h
        | ok s =>
          rw [h2] at h
          simp only at h
          cases h3 : g.tokenStrings ts with
          | error e => rw [h3] at h; simp at h
          | ok rest =>
            rw [h3] at h
            simp only [Except.ok.injEq] at h
            subst h
            refine List.Forall₂.cons ((hto s).2 ?_) (ih.1 h3)
            rw [h1]
            cases v with
            | atom a => cases a <;> simp [asString] at h2 ⊢; exact h2
            | set => simp [asString] at h2
            | list => simp [asString] at h2
            | dict => simp [asString] at h2
    · intro h
      cases h with
      | cons h1 h2 =>
        rw [(hto _).1 h1, ih.2 h2]
        rfl

theorem startOf_le_join (ss : List String) (i : Nat) (hi : i < ss.length) :
    ((joinChars " ".toList (ss.map String.toList)).drop (startOf ss i)).take (ss.getD i "").toList.length = (ss.getD i "").toList := by
  induction ss generalizing i with
  | nil => simp at hi
  | cons s ss ih =>
    cases i with
    | zero =>
      rw [startOf_zero]
      cases ss with
      | nil => simp [joinChars]
      | cons r rs => simp [joinChars]
    | succ i =>
      cases ss with
      | nil => simp at hi
      | cons r rs =>
        have := ih i (by simpa using hi)
        rw [startOf_cons]
        simp only [List.map_cons, joinChars, List.getD_cons_succ]
        rw [show s.toList.length + 1 + startOf (r :: rs) i = (s.toList ++ " ".toList).length + startOf (r :: rs) i by simp]
        rw [← List.drop_drop, List.drop_left']
        · simpa using this
        · rfl

theorem length_join (ss : List String) (hne : ss ≠ []) : (joinChars " ".toList (ss.map String.toList)).length = endOf ss (ss.length - 1) := by
  induction ss with
  | nil => exact absurd rfl hne
  | cons s ss ih =>
    cases ss with
    | nil => simp [joinChars, endOf_zero]
    | cons r rs =>
      have := ih (by simp)
      simp only [List.map_cons] at this ⊢
      rw [joinChars, List.length_append, List.length_append, this]
      simp only [List.length_cons, Nat.add_sub_cancel]
      rw [show rs.length + 1 = rs.length + 1 from rfl, endOf_cons]
      simp

end DG
end Dg
