import Verif.Model.Tiger
import Verif.Lemmas.Exmaralda

/-! Calls of readers that depend on whether a node exists already. -/

namespace Dg
open Dict
namespace DG

/-- a call made by a reader, which may depend on the nodes of the graph -/
inductive CInstr
  | plain (i : Instr)
  /-- `if n not in self: self.add_node(n, layers=set(layers))` -/
  | ensure (n : NodeId) (layers : List String)
  /-- `if n in self: self.node[n].update(attrs) else: self.add_node(n, layers=set(layers), attr_dict=attrs)` -/
  | declare (n : NodeId) (layers : List String) (attrs : Attrs)
  deriving DecidableEq, Repr

/-- the call itself -/
def CInstr.exec (g : DG) : CInstr → Except PyErr DG
  | .plain i => i.exec g
  | .ensure n ls => if Dict.has g.nodes n then .ok g else (Instr.node n ls []).exec g
  | .declare n ls d => if Dict.has g.nodes n then g.updateNode n d else (Instr.node n ls d).exec g

/-- all calls, one after the other -/
def cexecs (g : DG) (s : List CInstr) : Except PyErr DG := s.foldlM CInstr.exec g

/-- the nodes that exist after the call, at the latest -/
def CInstr.newNodes : CInstr → List NodeId
  | .plain (.node n _ _) => [n]
  | .plain (.edge u v _ _) => [u, v]
  | .plain _ => []
  | .ensure n _ => [n]
  | .declare n _ _ => [n]

/-- the unconditional calls it makes, if exactly the nodes in `seen` exist -/
def CInstr.instrs (seen : List NodeId) : CInstr → List Instr
  | .plain i => [i]
  | .ensure n ls => if n ∈ seen then [] else [.node n ls []]
  | .declare n ls d => if n ∈ seen then d.map (fun kv => .attr n kv.1 kv.2) else [.node n ls d]

/-- the unconditional calls, if exactly the nodes in `seen` exist at the beginning -/
def compile : List NodeId → List CInstr → List Instr
  | _, [] => []
  | seen, c :: cs => c.instrs seen ++ compile (c.newNodes ++ seen) cs

/-- the arguments are fine -/
def CInstr.Ok (seen : List NodeId) : CInstr → Prop
  | .plain i => i.Ok (· ∈ seen)
  | .ensure _ ls => ls ≠ []
  | .declare _ ls d => ls ≠ [] ∧ (Dict.keys d).Nodup ∧ "layers" ∉ Dict.keys d

/-- all arguments are fine -/
def CallsOk : List NodeId → List CInstr → Prop
  | _, [] => True
  | seen, c :: cs => c.Ok seen ∧ CallsOk (c.newNodes ++ seen) cs

/-- the value the call assigns to an attribute of a node -/
def CInstr.write (m : NodeId) (k : String) : CInstr → Option Val
  | .plain i => i.write m k
  | .ensure _ _ => none
  | .declare n _ d => if m = n then Dict.find d k else none

/-- the last value assigned -/
def clastWrite (m : NodeId) (k : String) : List CInstr → Option Val
  | [] => none
  | c :: cs => (clastWrite m k cs).or (c.write m k)

/-- the call gives the layer to the node, in any case -/
def CInstr.GivesLayer (m : NodeId) (l : Atom) : CInstr → Prop
  | .plain i => i.GivesLayer m l
  | _ => False

/-- the call gives the layer to the node, if the node does not exist -/
def CInstr.MayGive (m : NodeId) (l : Atom) : CInstr → Prop
  | .plain _ => False
  | .ensure n ls => m = n ∧ l ∈ ls.map Atom.str
  | .declare n ls _ => m = n ∧ l ∈ ls.map Atom.str

/-- the first call that mentions the node gives the layer to it -/
def FirstGives (m : NodeId) (l : Atom) : List CInstr → Prop
  | [] => False
  | c :: cs => c.MayGive m l ∨ (m ∉ c.newNodes ∧ FirstGives m l cs)

/-- edges are added between existing nodes only -/
def EndsKnown : List NodeId → List CInstr → Prop
  | _, [] => True
  | seen, c :: cs => (∀ u v ls at', c = .plain (.edge u v ls at') → u ∈ seen ∧ v ∈ seen) ∧ EndsKnown (c.newNodes ++ seen) cs

/-- the call is an `add_edge` from `u` to `v` -/
def CInstr.isEdge (u v : NodeId) : CInstr → Bool
  | .plain i => i.isEdge u v
  | _ => false

theorem updateNode_eq {n : NodeId} : ∀ {d : Attrs} {g : DG}, g.HasNode n → g.updateNode n d = execs g (d.map (fun kv => .attr n kv.1 kv.2)) := by
  intro d
  induction d with
  | nil =>
    intro g h
    obtain ⟨a, ha⟩ := (hasNode_some _ _).1 h
    unfold updateNode
    have ha : find g.nodes n = some a := ha
    rw [ha]
    show Except.ok _ = Except.ok _
    simp only [upd, List.foldl_nil, put_find_self ha]
  | cons kv d ih =>
    intro g h
    obtain ⟨a, ha⟩ := (hasNode_some _ _).1 h
    have ha : find g.nodes n = some a := ha
    rw [List.map_cons, execs_cons]
    have e1 : (Instr.attr n kv.1 kv.2).exec g = .ok { g with nodes := put g.nodes n (put a kv.1 kv.2) } := by
      show g.setAttr n kv.1 kv.2 = _
      unfold setAttr
      rw [ha]
    rw [e1]
    show _ = execs _ _
    rw [← ih (g := { g with nodes := put g.nodes n (put a kv.1 kv.2) }) ((hasNode_some _ _).2 ⟨put a kv.1 kv.2, find_put_self _ _ _⟩)]
    unfold updateNode
    rw [ha, find_put_self]
    simp only [put_put]
    rfl

theorem instrs_ok {seen : List NodeId} {c : CInstr} (h : c.Ok seen) : ScriptOk (· ∈ seen) (c.instrs seen) := by
  cases c with
  | plain i => exact ⟨h, trivial⟩
  | ensure n ls =>
    simp only [CInstr.instrs]
    split
    · trivial
    · exact ⟨⟨h, by simp [keys]⟩, trivial⟩
  | declare n ls d =>
    simp only [CInstr.instrs]
    split
    · rename_i hn
      have : ∀ (d : Attrs) (has : NodeId → Prop), "layers" ∉ keys d → has n → ScriptOk has (d.map (fun kv => .attr n kv.1 kv.2)) := by
        intro d
        induction d with
        | nil => intro _ _ _; trivial
        | cons kv d ih =>
          intro has hd hn
          simp only [keys, List.map_cons, List.mem_cons, not_or] at hd
          exact ⟨⟨hn, Ne.symm hd.1⟩, ih _ hd.2 (.inl hn)⟩
      exact this d _ h.2.2 hn
    · exact ⟨⟨h.1, h.2.1⟩, trivial⟩

theorem exec_instrs {g : DG} {seen : List NodeId} (hs : ∀ m, g.HasNode m ↔ m ∈ seen) (c : CInstr) : c.exec g = execs g (c.instrs seen) := by
  cases c with
  | plain i => exact (execs_one g i).symm
  | ensure n ls =>
    simp only [CInstr.exec, CInstr.instrs]
    by_cases h : n ∈ seen
    · rw [if_pos h, if_pos ((has_iff _ _).2 ((hs n).2 h))]; rfl
    · rw [if_neg h, if_neg (fun e => h ((hs n).1 ((has_iff _ _).1 e))), execs_one]
  | declare n ls d =>
    simp only [CInstr.exec, CInstr.instrs]
    by_cases h : n ∈ seen
    · rw [if_pos h, if_pos ((has_iff _ _).2 ((hs n).2 h))]
      exact updateNode_eq (g := g) ((hs n).2 h)
    · rw [if_neg h, if_neg (fun e => h ((hs n).1 ((has_iff _ _).1 e))), execs_one]

theorem mentions_instrs {seen : List NodeId} {c : CInstr} {m : NodeId} : (m ∈ seen ∨ ∃ i ∈ c.instrs seen, i.Mentions m) ↔ m ∈ c.newNodes ++ seen := by
  rw [List.mem_append]
  cases c with
  | plain i =>
    have : (∃ j ∈ [i], j.Mentions m) ↔ m ∈ (CInstr.plain i).newNodes := by
      cases i <;> simp [Instr.Mentions, CInstr.newNodes]
    show (m ∈ seen ∨ ∃ j ∈ [i], j.Mentions m) ↔ _
    rw [this, or_comm]
  | ensure n ls =>
    simp only [CInstr.instrs, CInstr.newNodes]
    by_cases h : n ∈ seen
    · rw [if_pos h]
      simp only [List.not_mem_nil, false_and, exists_false, or_false, List.mem_singleton]
      exact ⟨.inr, fun e => e.elim (fun e => e ▸ h) id⟩
    · rw [if_neg h]
      simp only [List.mem_singleton, exists_eq_left, Instr.Mentions]
      exact or_comm
  | declare n ls d =>
    simp only [CInstr.instrs, CInstr.newNodes]
    by_cases h : n ∈ seen
    · rw [if_pos h]
      have : ¬ ∃ i ∈ d.map (fun kv => Instr.attr n kv.1 kv.2), i.Mentions m := by
        rintro ⟨i, hi, hm⟩
        obtain ⟨kv, _, rfl⟩ := List.mem_map.1 hi
        exact hm
      simp only [this, or_false, List.mem_singleton]
      exact ⟨.inr, fun e => e.elim (fun e => e ▸ h) id⟩
    · rw [if_neg h]
      simp only [List.mem_singleton, exists_eq_left, Instr.Mentions]
      exact or_comm

theorem cexecs_cons (g : DG) (c : CInstr) (cs : List CInstr) : cexecs g (c :: cs) = (c.exec g >>= fun g' => cexecs g' cs) := by
  unfold cexecs
  rw [List.foldlM_cons]

theorem cexecs_append (g : DG) (s s' : List CInstr) : cexecs g (s ++ s') = (cexecs g s >>= fun g' => cexecs g' s') := by
  unfold cexecs
  rw [List.foldlM_append]

/-- Conditional calls with fine arguments succeed, and the result contains exactly what the corresponding unconditional calls say. -/
theorem cexecs_built (cs : List CInstr) : ∀ {g : DG} {seen : List NodeId}, Inv g → NodesLayered False g → (∀ m, g.HasNode m ↔ m ∈ seen) → CallsOk seen cs →
    ∃ g', cexecs g cs = .ok g' ∧ execs g (compile seen cs) = .ok g' ∧ Built g (compile seen cs) g' := by
  intro g seen hi hl hs hok
  have key : cexecs g cs = execs g (compile seen cs) ∧ ScriptOk g.HasNode (compile seen cs) := by
    induction cs generalizing g seen with
    | nil => exact ⟨rfl, trivial⟩
    | cons c cs ih =>
      have o1 : ScriptOk g.HasNode (c.instrs seen) := scriptOk_congr (fun m => (hs m).symm) (instrs_ok hok.1)
      obtain ⟨g1, e1, b1⟩ := execs_built _ hi hl o1
      have hs1 : ∀ m, g1.HasNode m ↔ m ∈ c.newNodes ++ seen := fun m => by rw [b1.nodes, hs, mentions_instrs]
      obtain ⟨e2, o2⟩ := ih b1.inv b1.layered hs1 hok.2
      constructor
      · rw [cexecs_cons, exec_instrs hs, e1]
        show cexecs g1 cs = execs g (c.instrs seen ++ _)
        rw [execs_append, e1]
        exact e2
      · unfold compile
        rw [scriptOk_append]
        exact ⟨o1, scriptOk_congr (fun m => by rw [b1.nodes]) o2⟩
  obtain ⟨g', e, b⟩ := execs_built _ hi hl key.2
  exact ⟨g', key.1.trans e, e, b⟩

theorem compile_append (a b : List CInstr) : ∀ seen, compile seen (a ++ b) = compile seen a ++ compile ((a.flatMap CInstr.newNodes).reverse ++ seen) b := by
  induction a with
  | nil => intro seen; rfl
  | cons c a ih =>
    intro seen
    have hc : ∀ (s1 s2 : List NodeId), (∀ m, m ∈ s1 ↔ m ∈ s2) → ∀ cs, compile s1 cs = compile s2 cs := by
      intro s1 s2 h cs
      induction cs generalizing s1 s2 with
      | nil => rfl
      | cons d cs ih2 =>
        have e : d.instrs s1 = d.instrs s2 := by cases d <;> simp [CInstr.instrs, h]
        unfold compile
        rw [e, ih2 (d.newNodes ++ s1) (d.newNodes ++ s2) (by intro m; simp [h])]
    rw [List.cons_append, compile, compile, ih, List.append_assoc]
    congr 2
    apply hc
    intro m
    simp only [List.flatMap_cons, List.reverse_append, List.mem_append, List.mem_reverse]
    tauto

theorem mentions_compile {m : NodeId} (cs : List CInstr) : ∀ {seen : List NodeId}, (m ∈ seen ∨ ∃ i ∈ compile seen cs, i.Mentions m) ↔ (m ∈ seen ∨ ∃ c ∈ cs, m ∈ c.newNodes) := by
  induction cs with
  | nil => intro seen; simp [compile]
  | cons c cs ih =>
    intro seen
    have h := ih (seen := c.newNodes ++ seen)
    have h1 := mentions_instrs (seen := seen) (c := c) (m := m)
    unfold compile
    constructor
    · rintro (h' | ⟨i, hi, hm⟩)
      · exact .inl h'
      · rcases List.mem_append.1 hi with hi | hi
        · rcases List.mem_append.1 (h1.1 (.inr ⟨i, hi, hm⟩)) with e | e
          · exact .inr ⟨c, by simp, e⟩
          · exact .inl e
        · rcases h.1 (.inr ⟨i, hi, hm⟩) with e | ⟨c', hc, e⟩
          · rcases List.mem_append.1 e with e | e
            · exact .inr ⟨c, by simp, e⟩
            · exact .inl e
          · exact .inr ⟨c', by simp [hc], e⟩
    · rintro (h' | ⟨c', hc, hm⟩)
      · exact .inl h'
      · rcases List.mem_cons.1 hc with rfl | hc
        · rcases h1.2 (List.mem_append_left _ hm) with e | ⟨i, hi, e⟩
          · exact .inl e
          · exact .inr ⟨i, List.mem_append_left _ hi, e⟩
        · rcases h.2 (.inr ⟨c', hc, hm⟩) with e | ⟨i, hi, e⟩
          · rcases h1.2 e with e | ⟨i, hi, e⟩
            · exact .inl e
            · exact .inr ⟨i, List.mem_append_left _ hi, e⟩
          · exact .inr ⟨i, List.mem_append_right _ hi, e⟩

theorem lastWrite_attrs {m n : NodeId} {k : String} : ∀ {d : Attrs}, (keys d).Nodup → lastWrite m k (d.map (fun kv => .attr n kv.1 kv.2)) = if m = n then find d k else none := by
  intro d
  induction d with
  | nil => intro _; simp [lastWrite, find]
  | cons kv d ih =>
    intro nd
    simp only [keys, List.map_cons, List.nodup_cons] at nd
    rw [List.map_cons, lastWrite, ih nd.2]
    obtain ⟨x, v⟩ := kv
    by_cases e : m = n
    · rw [if_pos e, if_pos e]
      by_cases e2 : k = x
      · subst e2
        have : find d k = none := (find_eq_none_iff _ _).2 nd.1
        rw [this]
        simp [Instr.write, e, find]
      · simp [Instr.write, e, e2, find, Ne.symm e2]
    · simp [e, Instr.write]

theorem lastWrite_compile {m : NodeId} {k : String} (cs : List CInstr) : ∀ {seen : List NodeId}, CallsOk seen cs → lastWrite m k (compile seen cs) = clastWrite m k cs := by
  induction cs with
  | nil => intro _ _; rfl
  | cons c cs ih =>
    intro seen hok
    unfold compile clastWrite
    rw [lastWrite_append, ih hok.2]
    congr 1
    cases c with
    | plain i => simp [CInstr.instrs, lastWrite, CInstr.write]
    | ensure n ls =>
      simp only [CInstr.instrs, CInstr.write]
      split
      · rfl
      · simp [lastWrite, Instr.write, find]
    | declare n ls d =>
      simp only [CInstr.instrs, CInstr.write]
      split
      · exact lastWrite_attrs hok.1.2.1
      · simp [lastWrite, Instr.write]

theorem givesLayer_compile {m : NodeId} {l : Atom} (cs : List CInstr) : ∀ {seen : List NodeId}, (∃ i ∈ compile seen cs, i.GivesLayer m l) ↔ (∃ c ∈ cs, c.GivesLayer m l) ∨ (m ∉ seen ∧ FirstGives m l cs) := by
  induction cs with
  | nil => intro seen; simp [compile, FirstGives]
  | cons c cs ih =>
    intro seen
    have hc : (∃ i ∈ c.instrs seen, i.GivesLayer m l) ↔ c.GivesLayer m l ∨ (m ∉ seen ∧ c.MayGive m l) := by
      cases c with
      | plain i => simp [CInstr.instrs, CInstr.GivesLayer, CInstr.MayGive]
      | ensure n ls =>
        simp only [CInstr.instrs, CInstr.GivesLayer, CInstr.MayGive]
        by_cases h : n ∈ seen
        · rw [if_pos h]
          simp only [List.not_mem_nil, false_and, exists_false, false_or, false_iff]
          rintro ⟨h1, h2, _⟩
          exact h1 (h2 ▸ h)
        · rw [if_neg h]
          simp only [List.mem_singleton, exists_eq_left, Instr.GivesLayer, false_or]
          exact ⟨fun e => ⟨e.1 ▸ h, e⟩, And.right⟩
      | declare n ls d =>
        simp only [CInstr.instrs, CInstr.GivesLayer, CInstr.MayGive]
        by_cases h : n ∈ seen
        · rw [if_pos h]
          simp only [false_or]
          constructor
          · rintro ⟨i, hi, hm⟩
            obtain ⟨kv, _, rfl⟩ := List.mem_map.1 hi
            exact hm.elim
          · rintro ⟨h1, h2, _⟩
            exact (h1 (h2 ▸ h)).elim
        · rw [if_neg h]
          simp only [List.mem_singleton, exists_eq_left, Instr.GivesLayer, false_or]
          exact ⟨fun e => ⟨e.1 ▸ h, e⟩, And.right⟩
    have e1 : (∃ i ∈ compile seen (c :: cs), i.GivesLayer m l) ↔ (∃ i ∈ c.instrs seen, i.GivesLayer m l) ∨ (∃ i ∈ compile (c.newNodes ++ seen) cs, i.GivesLayer m l) := by
      rw [compile]
      simp only [List.mem_append, or_and_right, exists_or]
    rw [e1, hc, ih]
    have hmm : c.MayGive m l → m ∈ c.newNodes := by cases c <;> simp [CInstr.MayGive, CInstr.newNodes] <;> tauto
    simp only [List.mem_cons, exists_eq_or_imp, FirstGives, List.mem_append, not_or]
    generalize (∃ c, c ∈ cs ∧ CInstr.GivesLayer m l c) = X
    tauto

theorem edge_compile {u v : NodeId} {ls : List String} {at' : Attrs} (cs : List CInstr) : ∀ {seen : List NodeId}, .edge u v ls at' ∈ compile seen cs ↔ .plain (.edge u v ls at') ∈ cs := by
  induction cs with
  | nil => intro seen; simp [compile]
  | cons c cs ih =>
    intro seen
    unfold compile
    rw [List.mem_append, ih, List.mem_cons]
    have : .edge u v ls at' ∈ c.instrs seen ↔ .plain (.edge u v ls at') = c := by
      cases c with
      | plain i => simp [CInstr.instrs]
      | ensure n l2 =>
        simp only [CInstr.instrs]
        split <;> simp
      | declare n l2 d =>
        simp only [CInstr.instrs]
        split <;> simp
    rw [this]

theorem count_compile {u v : NodeId} (cs : List CInstr) : ∀ {seen : List NodeId}, (compile seen cs).countP (Instr.isEdge u v) = cs.countP (CInstr.isEdge u v) := by
  induction cs with
  | nil => intro seen; rfl
  | cons c cs ih =>
    intro seen
    unfold compile
    rw [List.countP_append, ih, List.countP_cons, Nat.add_comm]
    congr 1
    cases c with
    | plain i => simp only [CInstr.instrs, CInstr.isEdge, List.countP_cons, List.countP_nil, Nat.zero_add]; rfl
    | ensure n l2 =>
      simp only [CInstr.instrs, CInstr.isEdge]
      split <;> simp [Instr.isEdge]
    | declare n l2 d =>
      simp only [CInstr.instrs, CInstr.isEdge]
      split
      · simp only [Bool.false_eq_true, if_false]
        rw [List.countP_eq_zero]
        intro i hi
        obtain ⟨kv, _, rfl⟩ := List.mem_map.1 hi
        simp [Instr.isEdge]
      · simp [Instr.isEdge]

theorem implicit_append {m : NodeId} {a b : List Instr} : Implicit m (a ++ b) ↔ Implicit m a ∨ ((∀ i ∈ a, ¬ i.Mentions m) ∧ Implicit m b) := by
  induction a with
  | nil => simp [Implicit]
  | cons i a ih =>
    rw [List.cons_append, Implicit, Implicit, ih]
    simp only [List.mem_cons, forall_eq_or_imp]
    tauto

theorem not_implicit_compile {m : NodeId} (cs : List CInstr) : ∀ {seen : List NodeId}, EndsKnown seen cs → m ∉ seen → ¬ Implicit m (compile seen cs) := by
  induction cs with
  | nil => intro seen _ _ h; exact h
  | cons c cs ih =>
    intro seen hk hm h
    unfold compile at h
    rw [implicit_append] at h
    rcases h with h | ⟨h1, h⟩
    · cases c with
      | plain i =>
        cases i with
        | edge u v ls at' =>
          obtain ⟨hu, hv⟩ := hk.1 u v ls at' rfl
          simp only [CInstr.instrs, Implicit, Instr.Mentions] at h
          rcases h with ⟨h, _⟩ | ⟨_, h⟩
          · rcases h with rfl | rfl
            · exact hm hu
            · exact hm hv
          · exact h
        | node => simp [CInstr.instrs, Implicit, Instr.IsEdge] at h
        | attr => simp [CInstr.instrs, Implicit, Instr.IsEdge] at h
        | token => simp [CInstr.instrs, Implicit, Instr.IsEdge] at h
        | sentence => simp [CInstr.instrs, Implicit, Instr.IsEdge] at h
      | ensure n ls =>
        simp only [CInstr.instrs]at h
        split at h <;> simp [Implicit, Instr.IsEdge] at h
      | declare n ls d =>
        simp only [CInstr.instrs]at h
        split at h
        · have : ∀ d : Attrs, ¬ Implicit m (d.map (fun kv => Instr.attr n kv.1 kv.2)) := by
            intro d
            induction d with
            | nil => simp [Implicit]
            | cons kv d ih => simp only [List.map_cons, Implicit, Instr.IsEdge, and_false, false_or, not_and]; exact fun _ => ih
          exact this d h
        · simp [Implicit, Instr.IsEdge] at h
    · refine ih hk.2 ?_ h
      intro e
      rcases mentions_instrs.2 e with e | ⟨i, hi, e⟩
      · exact hm e
      · exact h1 i hi e

end DG
end Dg
