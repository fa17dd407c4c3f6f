import Verif.Model.Rs3Write

/-! Equality of trees is decidable (used in examples only). -/

namespace Dg

mutual
/-- decides equality of trees -/
def PTree.decEq : (a b : PTree) → Decidable (a = b)
  | .leaf s, .leaf t => if h : s = t then isTrue (by rw [h]) else isFalse (by intro e; cases e; exact h rfl)
  | .node l ks, .node m js =>
    if h : l = m then
      match PTree.decEqAll ks js with
      | isTrue h' => isTrue (by rw [h, h'])
      | isFalse h' => isFalse (by intro e; cases e; exact h' rfl)
    else isFalse (by intro e; cases e; exact h rfl)
  | .none, .none => isTrue rfl
  | .leaf _, .node _ _ => isFalse (by intro e; cases e)
  | .leaf _, .none => isFalse (by intro e; cases e)
  | .node _ _, .leaf _ => isFalse (by intro e; cases e)
  | .node _ _, .none => isFalse (by intro e; cases e)
  | .none, .leaf _ => isFalse (by intro e; cases e)
  | .none, .node _ _ => isFalse (by intro e; cases e)
/-- decides equality of lists of trees -/
def PTree.decEqAll : (as bs : List PTree) → Decidable (as = bs)
  | [], [] => isTrue rfl
  | a :: as, b :: bs =>
    match PTree.decEq a b, PTree.decEqAll as bs with
    | isTrue h, isTrue h' => isTrue (by rw [h, h'])
    | isFalse h, _ => isFalse (by intro e; cases e; exact h rfl)
    | _, isFalse h => isFalse (by intro e; cases e; exact h rfl)
  | [], _ :: _ => isFalse (by intro e; cases e)
  | _ :: _, [] => isFalse (by intro e; cases e)
end

instance : DecidableEq PTree := PTree.decEq

end Dg
