import Verif.Lemmas.SaltDoc

namespace Dg
open Dict
open DG (mapE mapE_ok bind_ok_iff)

theorem keys_entry {α : Type} (k : String) (f : α → SaltVal) (o : Option α) : (keys (saltEntry k f o)).Sublist [k] := by
  cases o with
  | none => exact List.nil_sublist _
  | some v => exact List.Sublist.refl _

theorem keys_append_salt (a b : SaltDict) : keys (a ++ b) = keys a ++ keys b := by
  unfold keys
  exact List.map_append

theorem dict_nodup (o : SaltObj) : (keys o.dict).Nodup := by
  have : (keys o.dict).Sublist (["name", "element_id", "xsi_type", "labels"] ++ ["layers"] ++ ["features"] ++ ["source"] ++ ["target"] ++ ["onset"] ++ ["offset"] ++ ["text"] ++ ["nodes"] ++ ["edges"]) := by
    unfold SaltObj.dict
    simp only [keys_append_salt]
    exact ((((((((((List.Sublist.refl _).append (keys_entry _ _ _)).append (keys_entry _ _ _)).append (keys_entry _ _ _)).append (keys_entry _ _ _)).append (keys_entry _ _ _)).append
      (keys_entry _ _ _)).append (keys_entry _ _ _)).append (keys_entry _ _ _)).append (keys_entry _ _ _))
  exact this.nodup (by decide)

theorem find_ensure (g : SaltGraph) (n m : Int) : find (g.ensure n).nodes m = match find g.nodes m with | some a => some a | none => if n = m then some [] else none := by
  unfold SaltGraph.ensure
  split
  · rename_i h
    cases hf : find g.nodes m with
    | some a => rfl
    | none =>
      dsimp only
      rw [if_neg]
      rintro rfl
      rw [has_iff, mem_keys_iff, hf] at h
      obtain ⟨_, h⟩ := h
      cases h
  · rename_i h
    dsimp only
    rw [find_put]
    split
    · rename_i he
      subst he
      cases hf : find g.nodes n with
      | some a => exact absurd ((has_iff _ _).2 ((mem_keys_iff _ _).2 ⟨a, hf⟩)) h
      | none => rfl
    · cases find g.nodes m <;> rfl

theorem edges_ensure (g : SaltGraph) (n : Int) : (g.ensure n).edges = g.edges := by
  unfold SaltGraph.ensure
  split <;> rfl

/-- the graph after some edges have been added to `g0` -/
structure SaltGraph.After (g0 : SaltGraph) (es : List SaltObj) (g : SaltGraph) : Prop where
  nodes : ∀ n, find g.nodes n = match find g0.nodes n with | some a => some a | none => if ∃ e ∈ es, e.source = some n ∨ e.target = some n then some [] else none
  noEdge : ∀ s t, edgesBetween es s t = [] → find g.edges (s, t) = none
  edge : ∀ s t, edgesBetween es s t ≠ [] → ∃ a, find g.edges (s, t) = some a ∧ ∀ k, find a k = ((edgesBetween es s t).filterMap (fun e => find e.dict k)).getLast?

theorem between_append (es : List SaltObj) (o : SaltObj) (s t : Int) :
    edgesBetween (es ++ [o]) s t = if o.source = some s ∧ o.target = some t then edgesBetween es s t ++ [o] else edgesBetween es s t := by
  unfold edgesBetween
  rw [List.filter_append]
  split
  · rename_i h
    congr 1
    rw [List.filter_cons, if_pos (by simpa using h)]
    rfl
  · rename_i h
    rw [List.filter_cons, if_neg (by simpa using h)]
    simp

theorem after_step {g0 g : SaltGraph} {es : List SaltObj} (h : SaltGraph.After g0 es g) {o : SaltObj} {s t : Int} (hs : o.source = some s) (ht : o.target = some t) :
    SaltGraph.After g0 (es ++ [o]) (g.addEdge s t o.dict) := by
  have hE : ∀ p, find (g.addEdge s t o.dict).edges p = if (s, t) = p then some (upd ((find g.edges (s, t)).getD []) o.dict) else find g.edges p := by
    intro p
    unfold SaltGraph.addEdge
    dsimp only
    rw [find_put, edges_ensure, edges_ensure]
  refine ⟨?_, ?_, ?_⟩
  · intro n
    have : find (g.addEdge s t o.dict).nodes n = find ((g.ensure s).ensure t).nodes n := rfl
    rw [this, find_ensure, find_ensure, h.nodes n]
    cases find g0.nodes n with
    | some a => rfl
    | none =>
      dsimp only
      by_cases h1 : ∃ e ∈ es, e.source = some n ∨ e.target = some n
      · rw [if_pos h1]
        dsimp only
        rw [if_pos]
        obtain ⟨e, he, hx⟩ := h1
        exact ⟨e, List.mem_append_left _ he, hx⟩
      · rw [if_neg h1]
        by_cases h2 : s = n
        · rw [if_pos h2]
          dsimp only
          rw [if_pos ⟨o, by simp, .inl (by rw [hs, h2])⟩]
        · rw [if_neg h2]
          by_cases h3 : t = n
          · dsimp only
            rw [if_pos h3, if_pos ⟨o, by simp, .inr (by rw [ht, h3])⟩]
          · dsimp only
            rw [if_neg h3, if_neg]
            rintro ⟨e, he, hx⟩
            rcases List.mem_append.1 he with he | he
            · exact h1 ⟨e, he, hx⟩
            · rw [List.mem_singleton.1 he, hs, ht] at hx
              rcases hx with hx | hx
              · exact h2 (Option.some.inj hx)
              · exact h3 (Option.some.inj hx)
  · intro s' t' hb
    rw [between_append] at hb
    split at hb
    · simp at hb
    · rename_i hne
      rw [hE, if_neg, h.noEdge _ _ hb]
      intro he
      cases he
      exact hne ⟨hs, ht⟩
  · intro s' t' hb
    rw [hE]
    by_cases he : (s, t) = (s', t')
    · cases he
      rw [if_pos rfl]
      refine ⟨_, rfl, fun k => ?_⟩
      rw [find_upd _ (dict_nodup o), between_append, if_pos ⟨hs, ht⟩, List.filterMap_append]
      have hold : find ((find g.edges (s, t)).getD []) k = ((edgesBetween es s t).filterMap (fun e => find e.dict k)).getLast? := by
        by_cases hn : edgesBetween es s t = []
        · rw [h.noEdge _ _ hn, hn]
          rfl
        · obtain ⟨a, ha, hk⟩ := h.edge _ _ hn
          rw [ha]
          exact hk k
      rw [hold]
      cases hk : find o.dict k with
      | none => simp [hk]
      | some v => simp [hk]
    · rw [if_neg he]
      rw [between_append, if_neg] at hb ⊢
      · exact h.edge _ _ hb
      · rintro ⟨h1, h2⟩
        rw [hs] at h1
        rw [ht] at h2
        cases h1
        cases h2
        exact he rfl
      · rintro ⟨h1, h2⟩
        rw [hs] at h1
        rw [ht] at h2
        cases h1
        cases h2
        exact he rfl

theorem addEdges_ok : ∀ (xs : List SXml) (done : List SaltObj) (g0 g g' : SaltGraph), SaltGraph.After g0 done g → SaltGraph.addEdges g xs = .ok g' →
    ∃ os, mapE saltInstance xs = .ok os ∧ (∀ o ∈ os, ∃ s t, o.source = some s ∧ o.target = some t) ∧ SaltGraph.After g0 (done ++ os) g'
  | [], done, g0, g, g', h, he => by
    cases he
    exact ⟨[], rfl, by simp, by simpa using h⟩
  | x :: xs, done, g0, g, g', h, he => by
    unfold SaltGraph.addEdges at he
    simp only [bind_ok_iff] at he
    obtain ⟨o, ho, s, hs, t, ht, he⟩ := he
    have hs' : o.source = some s := by
      cases hx : o.source with
      | none => rw [hx] at hs; cases hs
      | some y => rw [hx] at hs; cases hs; rfl
    have ht' : o.target = some t := by
      cases hx : o.target with
      | none => rw [hx] at ht; cases ht
      | some y => rw [hx] at ht; cases ht; rfl
    obtain ⟨os, h1, h2, h3⟩ := addEdges_ok xs _ g0 _ g' (after_step h hs' ht') he
    refine ⟨o :: os, ?_, ?_, by simpa using h3⟩
    · unfold mapE
      rw [ho, h1]
      rfl
    · intro o' ho'
      rcases List.mem_cons.1 ho' with rfl | ho'
      · exact ⟨s, t, hs', ht'⟩
      · exact h2 o' ho'

theorem addEdges_total : ∀ (xs : List SXml) (os : List SaltObj) (g : SaltGraph), mapE saltInstance xs = .ok os → (∀ o ∈ os, ∃ s t, o.source = some s ∧ o.target = some t) → ∃ g', SaltGraph.addEdges g xs = .ok g'
  | [], _, g, _, _ => ⟨g, rfl⟩
  | x :: xs, os, g, h, ho => by
    unfold mapE at h
    simp only [bind_ok_iff] at h
    obtain ⟨o, h1, os', h2, h3⟩ := h
    cases h3
    obtain ⟨s, t, hs, ht⟩ := ho o (.head _)
    obtain ⟨g', hg⟩ := addEdges_total xs os' (g.addEdge s t o.dict) h2 (fun o ho' => ho o (.tail _ ho'))
    refine ⟨g', ?_⟩
    unfold SaltGraph.addEdges
    simp only [h1, bind, Except.bind, hs, ht, saltAttr]
    exact hg

theorem addNodes_total : ∀ (xs : List SXml) (os : List SaltObj) (i : Nat) (g : SaltGraph), mapE saltInstance xs = .ok os → ∃ g', SaltGraph.addNodes g i xs = .ok g'
  | [], _, _, g, _ => ⟨g, rfl⟩
  | x :: xs, os, i, g, h => by
    unfold mapE at h
    simp only [bind_ok_iff] at h
    obtain ⟨o, h1, os', h2, h3⟩ := h
    obtain ⟨g', hg⟩ := addNodes_total xs os' (i + 1) (g.addNode i o.dict) h2
    refine ⟨g', ?_⟩
    unfold SaltGraph.addNodes
    rw [h1]
    exact hg

/-- the graph of a document -/
theorem xmiGraph_ok {root : SXml} {id : String} {ns es : List SaltObj} (hid : saltDocId root = .ok id) (hn : mapE saltInstance (saltElements root "nodes") = .ok ns)
    (he : mapE saltInstance (saltElements root "edges") = .ok es) (hends : ∀ o ∈ es, ∃ s t, o.source = some s ∧ o.target = some t) :
    ∃ g, saltXmiGraph root = .ok (id, g) ∧ g.Consists ns es := by
  obtain ⟨g1, h1⟩ := addNodes_total _ _ 0 {} hn
  obtain ⟨g2, h2⟩ := addEdges_total _ _ g1 he hends
  refine ⟨g2, ?_, ?_⟩
  · unfold saltXmiGraph
    simp only [hid, h1, h2, bind, Except.bind]
  · obtain ⟨ns', hn', hE, hN, hR⟩ := addNodes_ok _ 0 {} g1 (fun _ _ => rfl) h1
    obtain rfl : ns = ns' := Except.ok.inj (hn.symm.trans hn')
    have h0 : SaltGraph.After g1 [] g1 := by
      refine ⟨?_, ?_, ?_⟩
      · intro n
        cases find g1.nodes n with
        | some a => rfl
        | none => simp
      · intro s t _
        rw [hE]
        rfl
      · intro s t h
        exact absurd rfl h
    obtain ⟨es', he', _, hA⟩ := addEdges_ok _ [] g1 g1 g2 h0 h2
    obtain rfl : es = es' := Except.ok.inj (he.symm.trans he')
    rw [List.nil_append] at hA
    refine ⟨?_, ?_, hA.noEdge, hA.edge⟩
    · intro i o hi
      rw [hA.nodes, show ((i : Nat) : Int) = ((0 + i : Nat) : Int) by simp, hN i o hi]
    · intro n hn
      rw [hA.nodes, hR n (fun j hj => by simpa using hn j hj)]
      rfl

end Dg
