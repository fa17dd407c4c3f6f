import Verif.Lemmas.ConllText
import Verif.Lemmas.ScriptTree
import Verif.Lemmas.Anaphoricity
import Batteries.Lean.Except

/-! The content of the graph the CoNLL reader builds. -/

namespace Dg
open Dict
namespace DG

/-- what the calls make of a node that is mentioned in one `add_node` and possibly others without attributes -/
theorem Built.single' {g g' : DG} {s : List Instr} {m : NodeId} {ls : List String} {at' : Attrs} (hb : Built g s g') (hnew : ¬ g.HasNode m) (h : .node m ls at' ∈ s)
    (huniq : ∀ ls2 at2, .node m ls2 at2 ∈ s → (ls2 = ls ∧ at2 = at') ∨ (at2 = [] ∧ ∀ l ∈ ls2, l ∈ ls)) (hattr : ∀ k v, .attr m k v ∉ s) (hns : g.ns ∈ ls) : g'.NodeIs m at' ls := by
  constructor
  · intro k hk
    rw [hb.attr m k hk]
    have hold : g.nodeAttr m k = none := by
      have : g.nodeAttrs m = none := by
        cases he : g.nodeAttrs m with
        | none => rfl
        | some a => exact absurd ((hasNode_some g m).2 ⟨a, he⟩) hnew
      unfold nodeAttr; rw [this]; rfl
    rw [hold, Option.or_none]
    have hw : ∀ i ∈ s, ∀ v, i.write m k = some v → find at' k = some v := by
      intro i hi v hv
      cases i with
      | node n ls2 at2 =>
        simp only [Instr.write] at hv
        split at hv
        · next e =>
          subst e
          rcases huniq ls2 at2 hi with h | h
          · rw [← h.2]; exact hv
          · rw [h.1] at hv; cases hv
        · cases hv
      | attr n k' v' =>
        simp only [Instr.write] at hv
        split at hv
        · next e => obtain ⟨rfl, rfl⟩ := e; exact absurd hi (hattr _ _)
        · cases hv
      | edge => cases hv
      | token => cases hv
      | sentence => cases hv
    cases hf : find at' k with
    | none => 
      apply lastWrite_none
      intro i hi
      cases hv : i.write m k with
      | none => rfl
      | some v => have := hw i hi v hv; rw [hf] at this; cases this
    | some v =>
      apply lastWrite_unique
      · exact ⟨_, h, by simp [Instr.write, hf]⟩
      · intro i hi v' hv'
        have := hw i hi v' hv'
        rw [hf] at this
        exact (Option.some.inj this).symm
  · intro l
    rw [hb.layer m l]
    constructor
    · rintro (h1 | ⟨i, hi, hg⟩ | ⟨_, _, rfl⟩)
      · exfalso
        apply hnew
        unfold NodeLayer at h1
        rw [hasNode_some]
        obtain ⟨a, ha, _⟩ := h1
        exact ⟨a, ha⟩
      · cases i with
        | node n ls2 at2 =>
          obtain ⟨rfl, hl⟩ := hg
          rcases huniq ls2 at2 hi with h | h
          · rw [← h.1]; exact hl
          · obtain ⟨x, hx, rfl⟩ := List.mem_map.1 hl
            exact List.mem_map.2 ⟨x, h.2 x hx, rfl⟩
        | edge => exact hg.elim
        | attr => exact hg.elim
        | token => exact hg.elim
        | sentence => exact hg.elim
      · exact List.mem_map.2 ⟨_, hns, rfl⟩
    · intro hl
      exact .inr (.inl ⟨_, h, rfl, hl⟩)

/-! ### what is in the script -/

/-- the calls made for a word -/
inductive WordCall (ns : String) (i : Nat) (x : CoWord) : Instr → Prop
  | word : WordCall ns i x (.node (wordNode i x.id) [ns, qual ns "token"] (put x.attrs "sent_pos" (.atom (.int i))))
  | token : WordCall ns i x (.token (wordNode i x.id))
  | list (v : Val) : WordCall ns i x (.attr (sentNode i) "tokens" v)
  | head : x.head ≠ ['0'] → WordCall ns i x (.node (wordNode i x.head) [ns] [])
  | edge : WordCall ns i x (.edge (headNode i x) (wordNode i x.id) [ns, qual ns "dependency"] (depAttrs x.rel))

theorem mem_wordsScript {ns : String} {i : Nat} {I : Instr} : ∀ {xs : List CoWord} {before seen : List NodeId}, I ∈ wordsScript ns i before seen xs → ∃ x ∈ xs, WordCall ns i x I
  | [], before, seen, h => by cases h
  | x :: xs, before, seen, h => by
    unfold wordsScript at h
    rcases List.mem_append.1 h with h | h
    · refine ⟨x, by simp, ?_⟩
      rcases List.mem_append.1 h with h | h
      · unfold tokenScript at h
        simp only [List.mem_cons, List.not_mem_nil, or_false] at h
        rcases h with rfl | rfl | rfl
        · exact .word
        · exact .token
        · exact .list _
      · unfold depScript at h
        rcases List.mem_append.1 h with h | h
        · split at h
          · cases h
          · next hn =>
            obtain rfl := List.mem_singleton.1 h
            have h0 : x.head ≠ ['0'] := fun e => hn (.inl e)
            unfold headNode
            rw [if_neg h0]
            exact .head h0
        · obtain rfl := List.mem_singleton.1 h
          exact .edge
    · obtain ⟨y, hy, hc⟩ := mem_wordsScript h
      exact ⟨y, List.mem_cons_of_mem _ hy, hc⟩

theorem wordsScript_mem {ns : String} {i : Nat} : ∀ {xs : List CoWord} {before seen : List NodeId} {x : CoWord}, x ∈ xs →
    Instr.node (wordNode i x.id) [ns, qual ns "token"] (put x.attrs "sent_pos" (.atom (.int i))) ∈ wordsScript ns i before seen xs ∧
    Instr.edge (headNode i x) (wordNode i x.id) [ns, qual ns "dependency"] (depAttrs x.rel) ∈ wordsScript ns i before seen xs
  | [], _, _, _, h => by cases h
  | y :: xs, before, seen, x, h => by
    unfold wordsScript
    rcases List.mem_cons.1 h with rfl | h
    · constructor
      · refine List.mem_append_left _ (List.mem_append_left _ ?_)
        simp [tokenScript]
      · refine List.mem_append_left _ (List.mem_append_right _ ?_)
        simp [depScript]
    · have := wordsScript_mem (ns := ns) (i := i) (before := before ++ [wordNode i y.id]) (seen := headNode i y :: wordNode i y.id :: seen) h
      exact ⟨List.mem_append_right _ this.1, List.mem_append_right _ this.2⟩

theorem wordsScript_head {ns : String} {i : Nat} {h : List Char} : ∀ {xs : List CoWord} {before seen : List NodeId}, (∃ x ∈ xs, x.head = h) → h ≠ ['0'] → (∀ y ∈ xs, y.id ≠ h) → wordNode i h ∉ seen → sentNode i ∈ seen →
    Instr.node (wordNode i h) [ns] [] ∈ wordsScript ns i before seen xs
  | [], _, _, ⟨_, hx, _⟩, _, _, _, _ => by cases hx
  | y :: xs, before, seen, ⟨x, hx, he⟩, h0, hy, hs, hsent => by
    unfold wordsScript
    have hseen : wordNode i h ∉ wordNode i y.id :: seen := by
      intro hm
      rcases List.mem_cons.1 hm with e | hm
      · exact hy y (by simp) (wordNode_inj e).2.symm
      · exact hs hm
    by_cases hyh : y.head = h
    · refine List.mem_append_left _ (List.mem_append_right _ ?_)
      unfold depScript
      have e : headNode i y = wordNode i h := by unfold headNode; rw [hyh, if_neg h0]
      rw [e, hyh, if_neg (by rintro (h | h); exacts [h0 h, hseen h])]
      simp
    · refine List.mem_append_right _ (wordsScript_head ?_ h0 (fun z hz => hy z (List.mem_cons_of_mem _ hz)) ?_ (by simp [hsent]))
      · rcases List.mem_cons.1 hx with rfl | hx
        · exact absurd he hyh
        · exact ⟨x, hx, he⟩
      · intro hm
        rcases List.mem_cons.1 hm with e | hm
        · unfold headNode at e
          split at e
          · exact sentNode_ne_wordNode _ _ _ e.symm
          · exact hyh (wordNode_inj e).2.symm
        · exact hseen hm

theorem mem_sentsScript {ns : String} {r : NodeId} {I : Instr} : ∀ {xss : List (List CoWord)} {i : Nat} {seen : List NodeId}, I ∈ sentsScript ns r i seen xss →
    ∃ (k : Nat) (xs : List CoWord), xss[k]? = some xs ∧ (I ∈ sentScript ns r (i + k) ∨ ∃ x ∈ xs, WordCall ns (i + k) x I)
  | [], _, _, h => by cases h
  | xs :: xss, i, seen, h => by
    unfold sentsScript at h
    rcases List.mem_append.1 h with h | h
    · refine ⟨0, xs, rfl, ?_⟩
      rcases List.mem_append.1 h with h | h
      · exact .inl h
      · exact .inr (mem_wordsScript h)
    · obtain ⟨k, ys, hk, hc⟩ := mem_sentsScript h
      refine ⟨k + 1, ys, by simpa using hk, ?_⟩
      rwa [show i + (k + 1) = i + 1 + k by omega]

theorem sentsScript_mem {ns : String} {r : NodeId} {xs : List CoWord} : ∀ {xss : List (List CoWord)} {i k : Nat} {seen : List NodeId}, xss[k]? = some xs →
    (∀ I ∈ sentScript ns r (i + k), I ∈ sentsScript ns r i seen xss) ∧ ∃ seen', (∀ I ∈ wordsScript ns (i + k) [] (sentNode (i + k) :: seen') xs, I ∈ sentsScript ns r i seen xss) ∧
      ∀ m ∈ seen', m ∈ seen ∨ ∃ j < k, ∃ ys, xss[j]? = some ys ∧ m ∈ sentNodes (i + j) ys
  | [], _, _, _, h => by simp at h
  | ys :: xss, i, 0, seen, h => by
    obtain rfl : ys = xs := by simpa using h
    refine ⟨fun I hI => ?_, seen, fun I hI => ?_, fun m hm => .inl hm⟩
    · exact List.mem_append_left _ (List.mem_append_left _ hI)
    · exact List.mem_append_left _ (List.mem_append_right _ hI)
  | ys :: xss, i, k + 1, seen, h => by
    have h : xss[k]? = some xs := by simpa using h
    obtain ⟨h1, seen', h2, h3⟩ := sentsScript_mem (ns := ns) (r := r) (i := i + 1) (seen := sentNodes i ys ++ seen) h
    have e : i + 1 + k = i + (k + 1) := by omega
    rw [e] at h1 h2
    refine ⟨fun I hI => List.mem_append_right _ (h1 I hI), seen', fun I hI => List.mem_append_right _ (h2 I hI), ?_⟩
    intro m hm
    rcases h3 m hm with h | ⟨j, hj, zs, hz, hm⟩
    · rcases List.mem_append.1 h with h | h
      · exact .inr ⟨0, by omega, ys, rfl, h⟩
      · exact .inl h
    · exact .inr ⟨j + 1, by omega, zs, by simpa using hz, by rwa [show i + (j + 1) = i + 1 + j by omega]⟩

theorem sentNodes_not_word {i j : Nat} {ys : List CoWord} {h : List Char} (hij : i ≠ j) : wordNode i h ∉ sentNodes j ys := by
  unfold sentNodes
  intro hm
  rcases List.mem_cons.1 hm with e | hm
  · exact sentNode_ne_wordNode _ _ _ e.symm
  · obtain ⟨x, _, hx⟩ := List.mem_flatMap.1 hm
    have hx : wordNode i h = headNode j x ∨ wordNode i h = wordNode j x.id := by simpa using hx
    rcases hx with e | e
    · unfold headNode at e
      split at e
      · exact sentNode_ne_wordNode _ _ _ e.symm
      · exact hij (wordNode_inj e).1
    · exact hij (wordNode_inj e).1

/-! ### lists of tokens -/

theorem wordsScript_tokens {ns : String} {i : Nat} : ∀ {xs : List CoWord} {before seen : List NodeId}, (wordsScript ns i before seen xs).flatMap Instr.newTokens = xs.map (fun x => wordNode i x.id)
  | [], _, _ => rfl
  | x :: xs, before, seen => by
    unfold wordsScript
    rw [List.flatMap_append, List.flatMap_append, wordsScript_tokens]
    have : (depScript ns i (wordNode i x.id :: seen) x).flatMap Instr.newTokens = [] := by
      unfold depScript
      split <;> rfl
    rw [this]
    rfl

theorem wordsScript_sentences {ns : String} {i : Nat} : ∀ {xs : List CoWord} {before seen : List NodeId}, (wordsScript ns i before seen xs).flatMap Instr.newSentences = []
  | [], _, _ => rfl
  | x :: xs, before, seen => by
    unfold wordsScript
    rw [List.flatMap_append, List.flatMap_append, wordsScript_sentences]
    have : (depScript ns i (wordNode i x.id :: seen) x).flatMap Instr.newSentences = [] := by
      unfold depScript
      split <;> rfl
    rw [this]
    rfl

theorem sentsScript_tokens {ns : String} {r : NodeId} : ∀ {xss : List (List CoWord)} {i : Nat} {seen : List NodeId}, (sentsScript ns r i seen xss).flatMap Instr.newTokens = (xss.zipIdx i).flatMap (fun p => p.1.map (fun x => wordNode p.2 x.id))
  | [], _, _ => rfl
  | xs :: xss, i, seen => by
    unfold sentsScript
    rw [List.flatMap_append, List.flatMap_append, wordsScript_tokens, sentsScript_tokens, List.zipIdx_cons, List.flatMap_cons]
    rfl

theorem sentsScript_sentences {ns : String} {r : NodeId} : ∀ {xss : List (List CoWord)} {i : Nat} {seen : List NodeId}, (sentsScript ns r i seen xss).flatMap Instr.newSentences = (List.range' i xss.length).map sentNode
  | [], _, _ => rfl
  | xs :: xss, i, seen => by
    unfold sentsScript
    rw [List.flatMap_append, List.flatMap_append, wordsScript_sentences, sentsScript_sentences, List.length_cons, List.range'_succ, List.map_cons]
    rfl

theorem wordsScript_lastWrite {ns : String} {i : Nat} : ∀ {xs : List CoWord} {before seen : List NodeId}, lastWrite (sentNode i) "tokens" (wordsScript ns i before seen xs) = if xs = [] then none else some (.list ((before ++ xs.map (fun x => wordNode i x.id)).map tokenAtom))
  | [], _, _ => rfl
  | x :: xs, before, seen => by
    unfold wordsScript
    rw [lastWrite_append, wordsScript_lastWrite, lastWrite_append]
    have h1 : lastWrite (sentNode i) "tokens" (depScript ns i (wordNode i x.id :: seen) x) = none := by
      apply lastWrite_none
      intro j hj
      unfold depScript at hj
      rcases List.mem_append.1 hj with hj | hj
      · split at hj
        · cases hj
        · obtain rfl := List.mem_singleton.1 hj
          simp [Instr.write, find]
      · obtain rfl := List.mem_singleton.1 hj
        rfl
    rw [h1]
    have h2 : lastWrite (sentNode i) "tokens" (tokenScript ns i before x) = some (.list ((before ++ [wordNode i x.id]).map tokenAtom)) := by
      simp [tokenScript, lastWrite, Instr.write]
    rw [h2]
    by_cases hx : xs = []
    · subst hx; simp
    · simp [hx]

theorem sentsScript_lastWrite {ns : String} {r : NodeId} {xs : List CoWord} : ∀ {xss : List (List CoWord)} {i k : Nat} {seen : List NodeId}, xss[k]? = some xs →
    lastWrite (sentNode (i + k)) "tokens" (sentsScript ns r i seen xss) = some (.list (xs.map (fun x => tokenAtom (wordNode (i + k) x.id))))
  | [], _, _, _, h => by simp at h
  | ys :: xss, i, 0, seen, h => by
    obtain rfl : ys = xs := by simpa using h
    unfold sentsScript
    rw [lastWrite_append, lastWrite_append]
    have h1 : lastWrite (sentNode (i + 0)) "tokens" (sentsScript ns r (i + 1) (sentNodes i ys ++ seen) xss) = none := by
      apply lastWrite_none
      intro I hI
      obtain ⟨k, zs, _, hc⟩ := mem_sentsScript hI
      have hne : sentNode i ≠ sentNode (i + 1 + k) := fun e => by have := sentNode_inj e; omega
      rcases hc with hc | ⟨x, _, hc⟩
      · simp only [sentScript, List.mem_cons, List.not_mem_nil, or_false] at hc
        rcases hc with rfl | rfl | rfl
        · simp [Instr.write, hne]
        · rfl
        · rfl
      · cases hc with
        | word => simp [Instr.write, sentNode_ne_wordNode]
        | token => rfl
        | list v => simp [Instr.write, hne]
        | head => simp [Instr.write, sentNode_ne_wordNode]
        | edge => rfl
    rw [h1, Nat.add_zero, wordsScript_lastWrite]
    by_cases hy : ys = []
    · subst hy
      simp [sentScript, lastWrite, Instr.write, find]
    · simp [hy]
  | ys :: xss, i, k + 1, seen, h => by
    have h : xss[k]? = some xs := by simpa using h
    have ih := sentsScript_lastWrite (ns := ns) (r := r) (i := i + 1) (seen := sentNodes i ys ++ seen) h
    rw [show i + 1 + k = i + (k + 1) by omega] at ih
    unfold sentsScript
    rw [lastWrite_append, ih]
    rfl

/-! ### edges -/

theorem wordsScript_edges {ns : String} {i : Nat} : ∀ {xs : List CoWord} {before seen : List NodeId}, edgesOf (wordsScript ns i before seen xs) = xs.map (fun x => (headNode i x, wordNode i x.id))
  | [], _, _ => rfl
  | x :: xs, before, seen => by
    unfold wordsScript
    rw [edgesOf_append, edgesOf_append, wordsScript_edges]
    have : edgesOf (depScript ns i (wordNode i x.id :: seen) x) = [(headNode i x, wordNode i x.id)] := by
      unfold depScript
      split <;> rfl
    rw [this]
    rfl

theorem sentsScript_edges {ns : String} {r : NodeId} : ∀ {xss : List (List CoWord)} {i : Nat} {seen : List NodeId}, edgesOf (sentsScript ns r i seen xss) = (xss.zipIdx i).flatMap (fun p => (r, sentNode p.2) :: p.1.map (fun x => (headNode p.2 x, wordNode p.2 x.id)))
  | [], _, _ => rfl
  | xs :: xss, i, seen => by
    unfold sentsScript
    rw [edgesOf_append, edgesOf_append, wordsScript_edges, sentsScript_edges, List.zipIdx_cons, List.flatMap_cons]
    rfl

/-- nothing has two incoming edges -/
theorem sentsScript_targets {ns : String} {r : NodeId} {xss : List (List CoWord)} (hids : ∀ xs ∈ xss, (xs.map CoWord.id).Nodup) (i : Nat) (seen : List NodeId) : ((edgesOf (sentsScript ns r i seen xss)).map Prod.snd).Nodup := by
  rw [sentsScript_edges, List.map_flatMap, List.nodup_flatMap]
  constructor
  · rintro ⟨xs, k⟩ hp
    have hxs : xs ∈ xss := by
      rw [List.mem_zipIdx_iff_le_and_getElem?_sub] at hp
      exact List.mem_of_getElem? hp.2
    simp only [List.map_cons, List.map_map]
    rw [List.nodup_cons]
    constructor
    · intro hm
      obtain ⟨x, _, hx⟩ := List.mem_map.1 hm
      exact sentNode_ne_wordNode _ _ _ hx.symm
    · have : (fun p : NodeId × NodeId => p.2) ∘ (fun x => (headNode k x, wordNode k x.id)) = wordNode k ∘ CoWord.id := rfl
      show (xs.map (wordNode k ∘ CoWord.id)).Nodup
      rw [← List.map_map]
      exact List.Nodup.map (fun a b e => (wordNode_inj e).2) (hids xs hxs)
  · have hz : ((xss.zipIdx i).map Prod.snd).Nodup := by
      rw [List.zipIdx_map_snd]
      exact List.nodup_range'
    have := List.pairwise_map.1 hz
    refine List.Pairwise.imp ?_ this
    rintro ⟨xs, k⟩ ⟨ys, j⟩ hkj
    simp only at hkj
    simp only [Function.onFun, List.map_cons, List.map_map]
    intro m hm hm'
    have aux : ∀ (zs : List CoWord) (l : Nat), m ∈ sentNode l :: zs.map (Prod.snd ∘ fun x => (headNode l x, wordNode l x.id)) → m = sentNode l ∨ ∃ a, m = wordNode l a := by
      intro zs l h
      rcases List.mem_cons.1 h with h | h
      · exact .inl h
      · obtain ⟨x, _, hx⟩ := List.mem_map.1 h
        exact .inr ⟨x.id, hx.symm⟩
    rcases aux xs k hm with h1 | ⟨a, h1⟩ <;> rcases aux ys j hm' with h2 | ⟨b, h2⟩
    · exact hkj (sentNode_inj (h1.symm.trans h2))
    · exact sentNode_ne_wordNode _ _ _ (h1.symm.trans h2)
    · exact sentNode_ne_wordNode _ _ _ (h2.symm.trans h1)
    · exact hkj (wordNode_inj (h1.symm.trans h2)).1

end DG
end Dg
