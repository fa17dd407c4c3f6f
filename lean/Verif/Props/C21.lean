import Verif.Model.Merge
import Verif.Spec.Offsets
import Verif.Lemmas.SetAttr

/-! C21: create_token_mapping. -/

namespace Dg
open Dict
namespace DG

theorem tokenMappingLoop_spec {old new : DG} {ns : List NodeId} {s2 : List String} (hn : List.Forall₂ new.TokenStr ns s2) :
    ∀ {os s1}, List.Forall₂ old.TokenStr os s1 → ∀ m : Dict NodeId NodeId,
    tokenMappingLoop old new ns os m =
      if s2 <+: s1 then .ok (upd m (os.zip ns))
      else if s1 <+: s2 then .error .stopIteration else .error .value := by
  induction hn with
  | nil => intro os s1 ho m; simp [tokenMappingLoop]
  | @cons n t ns ts h1 h2 ih =>
    intro os s1 ho m
    have hnt : new.getToken n = .ok (.atom (.str t)) := getAttr_ok.2 h1
    cases ho with
    | nil => simp [tokenMappingLoop, hnt, bind, Except.bind]
    | @cons o s os ss g1 g2 =>
      have hot : old.getToken o = .ok (.atom (.str s)) := getAttr_ok.2 g1
      simp only [tokenMappingLoop, hnt, hot, bind, Except.bind]
      by_cases hts : t = s
      · subst hts
        simp only [ne_eq, not_true, if_false, ih g2]
        simp only [List.cons_prefix_cons, true_and]
        rfl
      · have h3 : (Val.atom (.str t)) ≠ .atom (.str s) := by simpa using hts
        have h4 : ¬ s = t := fun h => hts h.symm
        simp [h3, hts, h4, List.cons_prefix_cons]

/-- **C21**.  If both documents have the same token strings and the token IDs of the first are distinct, create_token_mapping succeeds and maps
the i-th token ID of the first to the i-th token ID of the second, and nothing else. -/
theorem c21_maps_position_by_position (old new : DG) (strs : List String) (ho : old.HasTokens strs) (hn : new.HasTokens strs)
    (nd : old.tokens.Nodup) :
    ∃ m, createTokenMapping old new = .ok m ∧ keys m = old.tokens ∧
      ∀ (i : Nat) o n, old.tokens[i]? = some o → new.tokens[i]? = some n → find m o = some n := by
  have hl : old.tokens.length = new.tokens.length := by rw [ho.length_eq, hn.length_eq]
  have hk : keys (old.tokens.zip new.tokens) = old.tokens := by
    unfold keys; exact List.map_fst_zip (by omega)
  refine ⟨upd [] (old.tokens.zip new.tokens), ?_, ?_, ?_⟩
  · unfold createTokenMapping
    rw [tokenMappingLoop_spec (os := old.tokens) (s1 := strs) hn ho]; simp
  · rw [upd_nil_of_nodup (by rw [hk]; exact nd), hk]
  · intro i o n h1 h2
    rw [upd_nil_of_nodup (by rw [hk]; exact nd)]
    apply mem_find (by rw [hk]; exact nd)
    rw [List.mem_iff_getElem?]
    exact ⟨i, by simp [List.getElem?_zip_eq_some, h1, h2]⟩

/-- **C21 (mismatch), partial**.  If the token strings of the second document are not an initial part of those of the first, create_token_mapping
raises: ValueError if some position differs, StopIteration if the second document is just longer.  Missing: the case that the first document has additional tokens at
the end, which is accepted, see `c21_fails_when_first_document_is_longer`. -/
theorem c21_mismatch_raises_partial (old new : DG) (s1 s2 : List String) (ho : old.HasTokens s1) (hn : new.HasTokens s2)
    (hne : ¬ s2 <+: s1) :
    createTokenMapping old new = .error (if s1 <+: s2 then .stopIteration else .value) := by
  unfold createTokenMapping
  rw [tokenMappingLoop_spec (os := old.tokens) (s1 := s1) hn ho]
  simp only [hne, if_false]
  split <;> rfl

/-- two one- and two-token documents -/
def shortDoc : DG := (init "" "a" none).run [.addNode (.int 1) (.atom .none) .none [("a:token", .atom (.str "x"))], .setTokens [.int 1]]
def longDoc : DG := (init "" "b" none).run [.addNode (.str "t1") (.atom .none) .none [("b:token", .atom (.str "x"))],
  .addNode (.str "t2") (.atom .none) .none [("b:token", .atom (.str "y"))], .setTokens [.str "t1", .str "t2"]]

/-- **C21 is violated**: a first document with more tokens than the second is accepted, although the tokenizations differ. -/
theorem c21_fails_when_first_document_is_longer :
    longDoc.HasTokens ["x", "y"] ∧ shortDoc.HasTokens ["x"] ∧ createTokenMapping longDoc shortDoc = .ok [(.str "t1", .int 1)] := by
  refine ⟨?_, ?_, by decide⟩
  · exact .cons (show _ = _ by decide) (.cons (show _ = _ by decide) .nil)
  · exact .cons (show _ = _ by decide) .nil

/-- the hypotheses of the mismatch theorem are met -/
example : ¬ ["x", "y"] <+: ["x"] := by decide
example : createTokenMapping shortDoc longDoc = .error .stopIteration := by decide
example : createTokenMapping longDoc longDoc = .ok [(.str "t1", .str "t1"), (.str "t2", .str "t2")] := by decide

end DG
end Dg
