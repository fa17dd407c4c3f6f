import Verif.Lemmas.GraphInv

namespace Dg
open Dict

namespace DG

theorem keyDict_eq (g : DG) (u v : NodeId) : g.keyDict u v = (g.kd? u v).getD [] := by
  unfold keyDict kd?
  cases find g.adj u <;> simp

theorem additionalLayers_str {ad : Attrs} {xs : List Atom} (h : additionalLayers ad = .ok xs) :
    ∀ x ∈ xs, ∃ s, x = Atom.str s := by
  unfold additionalLayers at h
  split at h
  · simp at h; subst h; simp
  · split at h
    · exact (strSet_ok h).2
    · split at h <;> simp at h
      subst h; simp

/-- in the cases that matter `additionalLayers` is the `layers` set of the shared attributes -/
theorem additionalLayers_eq {ad : Attrs} {xs : List Atom} (h : additionalLayers ad = .ok xs) (l : Atom) :
    l ∈ xs ↔ AttrsLayer ad l := by
  unfold additionalLayers at h
  unfold AttrsLayer
  split at h
  · rename_i h0; simp at h; subst h; simp [h0]
  · rename_i v hv
    split at h
    · obtain ⟨rfl, _⟩ := strSet_ok h
      simp [hv]
    · rename_i ht
      have hx : xs = [] := by split at h <;> simp_all
      subst hx
      simp only [List.not_mem_nil, hv, false_iff, not_exists, not_and]
      rintro ys hys
      injection hys with hys; subst hys
      simp [Val.truthy] at ht
      simp [ht]

/-- `add_edges_from`, one tuple: either nothing happens (exception) or exactly the edge `(u, v, k)` is
set/created. -/
theorem addEdgeItem_view {g g' : DG} (hi : Inv g) {ad dd : Attrs} {u v : NodeId} {key : Option Key} {e : Option PyErr}
    (nda : (keys ad).Nodup) (ndd : (keys dd).Nodup)
    (h : g.addEdgeItem ad u v key dd = (g', e)) :
    (e ≠ none ∧ g' = g ∧
      ¬ ((∃ dl, layersEntry (g.defaultLayers dd) = .ok (.set dl) ∧ ∀ x ∈ dl, ∃ s, x = Atom.str s) ∧
         ∃ xs, additionalLayers ad = .ok xs)) ∨
    (e = none ∧ ∃ k a layers, k = key.getD (freshKey ((g.kd? u v).getD [])) ∧
      (find dd "layers").getD (.set [.str g.ns]) = .set layers ∧
      Inv g' ∧
      (∀ u' v', g'.kd? u' v' = if u' = u ∧ v' = v then some (put ((g.kd? u v).getD []) k a) else g.kd? u' v') ∧
      (∀ x, x ≠ "layers" → find a x = ((find dd x).or (find ad x)).or (g.edgeAttr u v k x)) ∧
      (∃ L, find a "layers" = some (.set L) ∧ (∀ x ∈ L, ∃ s, x = Atom.str s) ∧ L ≠ [] ∧
        (∀ l, g.EdgeLayer u v k l ∨ l ∈ layers ∨ AttrsLayer ad l → l ∈ L) ∧
        (∀ l ∈ L, g.EdgeLayer u v k l ∨ l ∈ layers ∨ AttrsLayer ad l ∨
          (layers = [] ∧ (∀ x, ¬ AttrsLayer ad x) ∧ (∀ x, ¬ g.EdgeLayer u v k x) ∧ l = .str g.ns))) ∧
      (∀ n, g'.nodeAttrs n = if n = u ∨ n = v then some ((g.nodeAttrs n).getD [("layers", .set [.str g.ns])])
        else g.nodeAttrs n)) := by
  unfold addEdgeItem at h
  simp only [bind, Except.bind] at h
  split at h
  · rename_i er her
    injection h with h1 h2; left
    refine ⟨by rw [← h2]; simp, h1.symm, ?_⟩
    rintro ⟨⟨dl, hdl, hs⟩, _⟩
    rw [hdl] at her
    simp [strSet_isOk hs] at her
  rename_i layers hlay
  split at hlay
  · simp at hlay
  rename_i lv hlv
  obtain ⟨rfl, hlstr⟩ := strSet_ok hlay
  have hdl := layersEntry_ok hlv
  have hdl2 := hdl
  rw [find_defaultLayers] at hdl2
  split at h
  · rename_i er her
    injection h with h1 h2; left
    refine ⟨by rw [← h2]; simp, h1.symm, ?_⟩
    rintro ⟨_, xs, hxs⟩
    rw [hxs] at her; simp at her
  rename_i addl haddl
  have haddstr := additionalLayers_str haddl
  rw [keyDict_eq] at h
  generalize hkk : key.getD (freshKey ((g.kd? u v).getD [])) = k at *
  generalize hkd0 : (g.kd? u v).getD [] = kd at *
  have ndDD := nodup_defaultLayers g ndd
  -- the stored edge
  have hold := oldLayers hi u v k
  rw [hkd0] at hold
  have ndold := oldAttrs_nodup hi u v k
  rw [hkd0] at ndold
  have hedge : ∀ x, g.edgeAttr u v k x = find ((find kd k).getD []) x := by
    intro x
    unfold edgeAttr
    rcases hold with ⟨h0, h1⟩ | ⟨a, ex, h0, h1, _⟩ <;> simp [h0, h1]
  generalize hdd' : upd (upd ((find kd k).getD []) ad) (g.defaultLayers dd) = dd' at *
  have nddd' : (keys dd').Nodup := by rw [← hdd']; exact nodup_upd (nodup_upd ndold _) _
  have hfind' : ∀ x, x ≠ "layers" → find dd' x = ((find dd x).or (find ad x)).or (g.edgeAttr u v k x) := by
    intro x hx
    rw [← hdd', find_upd _ ndDD, find_upd _ nda, find_defaultLayers_ne _ _ hx, hedge]
    cases find dd x <;> simp
  have hlay' : find dd' "layers" = some (.set layers) := by
    rw [← hdd', find_upd _ ndDD, hdl]; simp
  -- existing layers
  have hexl : ∃ ex, layersOrEmpty ((find kd k).getD []) = .ok ex ∧ (∀ x ∈ ex, ∃ s, x = Atom.str s) ∧
      (∀ l, l ∈ ex ↔ g.EdgeLayer u v k l) := by
    unfold EdgeLayer AttrsLayer
    rcases hold with ⟨h0, h1⟩ | ⟨a, ex, h0, h1, h2, h3, h4⟩
    · refine ⟨[], by simp [h1, layersOrEmpty], by simp, by simp [h0]⟩
    · refine ⟨ex, by simp [h1, h2, layersOrEmpty], h3, by simp [h0, h2]⟩
  obtain ⟨ex, hex, hexstr, hexmem⟩ := hexl
  rw [hex] at h
  simp only at h
  generalize hg1 : (if (find kd k).isSome = true then g.putKeyDict u v (put kd k dd') else g) = g1 at *
  generalize hall : setUnion ex (setUnion layers addl) = all at *
  have hallstr : ∀ x ∈ all, ∃ s, x = Atom.str s := by
    rw [← hall]; exact setUnion_str hexstr (setUnion_str hlstr haddstr)
  -- facts on g1
  have hg1ns : g1.ns = g.ns := by rw [← hg1]; split <;> simp
  have hg1nodes : g1.nodes = g.nodes := by rw [← hg1]; split <;> simp
  have hsrc : (find kd k).isSome = true → u ∈ keys g.nodes ∧ v ∈ keys g.nodes := by
    intro hs
    cases hkk2 : g.kd? u v with
    | none => rw [hkk2] at hkd0; simp at hkd0; subst hkd0; simp at hs
    | some kd2 => exact ⟨kd?_source hi.wf hkk2, hi.wf.target _ _ _ hkk2⟩
  have hnodupkd : (keys kd).Nodup := by
    cases hkk2 : g.kd? u v with
    | none => rw [hkk2] at hkd0; simp at hkd0; subst hkd0; simp [keys]
    | some kd2 => rw [hkk2] at hkd0; simp at hkd0; subst hkd0; exact hi.wf.kdNodup _ _ _ hkk2
  have hwf1 : WF g1 := by
    rw [← hg1]; split
    · rename_i hs
      exact wf_putKeyDict hi.wf (hsrc hs).1 (hsrc hs).2 (nodup_put hnodupkd _ _) (put_ne_nil _ _ _)
    · exact hi.wf
  have hkd1 : ∀ u' v', g1.kd? u' v' = if u' = u ∧ v' = v ∧ (find kd k).isSome = true then some (put kd k dd') else g.kd? u' v' := by
    intro u' v'
    rw [← hg1]; split
    · rename_i hs
      rw [kd?_putKeyDict (by rw [hi.wf.adjKeys]; exact (hsrc hs).1)]
      simp only [hs, and_true]
    · rename_i hs
      rw [if_neg (fun hh => hs hh.2.2)]
  -- the inner add_edge call succeeds
  have hcl : ∃ ls, g1.checkLayers (.set all) = .ok ls ∧ (∀ x ∈ ls, ∃ s, x = Atom.str s) ∧ ls ≠ [] ∧
      (∀ x ∈ all, x ∈ ls) ∧ (∀ x ∈ ls, x ∈ all ∨ (all = [] ∧ x = .str g.ns)) := by
    unfold checkLayers
    by_cases he : all = []
    · subst he
      refine ⟨[.str g.ns], by simp [Val.truthy, nsLayers, hg1ns], by simp, by simp, by simp, by simp⟩
    · have : (Val.set all).truthy = true := by
        unfold Val.truthy; cases all <;> simp_all
      refine ⟨all, by simp [this, strSet_isOk hallstr], hallstr, he, by simp, fun x hx => Or.inl hx⟩
  obtain ⟨ls, hls, hlsstr, hlsne, hls1, hls2⟩ := hcl
  have hvalid : AttrArg.Valid (.dict (del dd' "layers")) := nodup_del nddd' _
  have hlays1 : ∀ u' v' k' a, g1.edgeAttrs u' v' k' = some a → ∃ xs, find a "layers" = some (.set xs) := by
    intro u' v' k' a ha
    unfold edgeAttrs at ha
    rw [hkd1] at ha
    split at ha
    · simp only [Option.bind_some, find_put] at ha
      rename_i hh
      split at ha
      · simp at ha; subst ha; exact ⟨_, hlay'⟩
      · have : g.edgeAttrs u' v' k' = some a := by
          unfold edgeAttrs
          obtain ⟨rfl, rfl, _⟩ := hh
          cases hkk2 : g.kd? u' v' with
          | none => rw [hkk2] at hkd0; simp at hkd0; subst hkd0; simp at ha
          | some kd2 => rw [hkk2] at hkd0; simp at hkd0; subst hkd0; simpa using ha
        obtain ⟨xs, hxs, _⟩ := hi.edges _ _ _ _ this
        exact ⟨xs, hxs⟩
    · obtain ⟨xs, hxs, _⟩ := hi.edges u' v' k' a ha
      exact ⟨xs, hxs⟩
  obtain ⟨g2, hg2⟩ := addEdge_isOk (u := u) (v := v) (key := some k) (attr := [])
    hwf1 hls (ad := .dict (del dd' "layers")) (by simp) hlays1
  rw [hg2] at h
  simp only [Prod.mk.injEq] at h
  obtain ⟨rfl, rfl⟩ := h
  right
  refine ⟨rfl, ?_⟩
  obtain ⟨ls', A, ex1, hls', hA, hex1, hkdf⟩ := kd?_addEdge hwf1 (by simp [keys]) hvalid hg2
  rw [hls] at hls'; injection hls' with hls'; subst hls'
  have hwf2 := wf_addEdge hwf1 (by simp [keys]) hvalid hg2
  have hn2 := nodeAttrs_addEdge hwf1 (by simp [keys]) hvalid hg2
  have ndA := mergeAttrArg_nodup hA (by simp [keys]) hvalid
  simp only [Option.getD_some] at hex1 hkdf
  -- attributes of the stored edge as add_edge sees it
  have hkd1' : (g1.kd? u v).getD [] = if (find kd k).isSome = true then put kd k dd' else kd := by
    rw [hkd1]
    by_cases hs : (find kd k).isSome = true
    · simp [hs]
    · simp [hs, hkd0]
  have hold1 : (find ((g1.kd? u v).getD []) k).getD [] = if (find kd k).isSome = true then dd' else [] := by
    rw [hkd1']
    by_cases hs : (find kd k).isSome = true
    · simp [hs]
    · simp only [hs, Bool.false_eq_true, if_false]
      have : find kd k = none := by cases hf : find kd k <;> simp_all
      simp [this]
  rw [hold1] at hex1 hkdf
  generalize ha : put (upd (if (find kd k).isSome = true then dd' else []) A) "layers" (.set (setUnion ex1 ls)) = a at *
  have hkdf2 : ∀ u' v', g2.kd? u' v' = if u' = u ∧ v' = v then some (put kd k a) else g.kd? u' v' := by
    intro u' v'
    rw [hkdf]
    by_cases huv : u' = u ∧ v' = v
    · simp only [huv, and_self, if_true, Option.some.injEq]
      rw [hkd1']
      split
      · rw [put_put]
      · rfl
    · simp only [huv, if_false]
      rw [hkd1]
      have : ¬ (u' = u ∧ v' = v ∧ (find kd k).isSome = true) := fun hh => huv ⟨hh.1, hh.2.1⟩
      simp [this]
  have hex1mem : ∀ x ∈ ex1, x ∈ layers := by
    intro x hx
    rcases hex1 with ⟨_, rfl⟩ | hex1
    · simp at hx
    · split at hex1
      · rw [hlay'] at hex1; injection hex1 with hex1; injection hex1 with hex1; subst hex1; exact hx
      · simp at hex1
  have hLlay : find a "layers" = some (.set (setUnion ex1 ls)) := by rw [← ha]; simp
  have hLstr : ∀ x ∈ setUnion ex1 ls, ∃ s, x = Atom.str s :=
    setUnion_str (fun x hx => hlstr x (hex1mem x hx)) hlsstr
  have hLne : setUnion ex1 ls ≠ [] := setUnion_ne_nil_right _ hlsne
  have hnda : (keys a).Nodup := by
    rw [← ha]
    apply nodup_put
    apply nodup_upd
    split
    · exact nddd'
    · simp [keys]
  have hn2' : ∀ n, g2.nodeAttrs n = if n = u ∨ n = v then some ((g.nodeAttrs n).getD [("layers", .set [.str g.ns])])
        else g.nodeAttrs n := by
    intro n
    rw [hn2 n, hg1ns]
    unfold nodeAttrs
    rw [hg1nodes]
  refine ⟨k, a, layers, rfl, Option.some.inj hdl2, ?_, hkdf2, ?_, ?_, hn2'⟩
  · refine inv_of_edge (k := k) (a := a) hi hwf2 ?_ hn2' hnda ⟨_, hLlay, hLstr, hLne⟩
    rw [hkd0]; exact hkdf2
  · intro x hx
    rw [← ha, find_put_ne _ _ (Ne.symm hx), find_upd _ ndA, mergeAttrArg_find hA (by simp [keys]) hx]
    simp only [find_nil, Option.none_or, argFind, find_del]
    rw [← hfind' x hx]
    simp only [Ne.symm hx, if_false]
    split
    · simp
    · simp
  · refine ⟨_, hLlay, hLstr, hLne, ?_, ?_⟩
    · intro l hl
      rw [mem_setUnion]
      right
      apply hls1
      rw [← hall]
      simp only [mem_setUnion]
      rw [hexmem, additionalLayers_eq haddl]
      exact hl
    · intro l hl
      rw [mem_setUnion] at hl
      rcases hl with hl | hl
      · exact Or.inr (Or.inl (hex1mem l hl))
      · rcases hls2 l hl with hl | ⟨h0, hl⟩
        · rw [← hall] at hl
          simp only [mem_setUnion] at hl
          rw [hexmem, additionalLayers_eq haddl] at hl
          rcases hl with hl | hl | hl <;> simp [hl]
        · right; right; right
          rw [← hall] at h0
          refine ⟨?_, ?_, ?_, hl⟩
          · apply List.eq_nil_iff_forall_not_mem.2
            intro x hx
            have : x ∈ setUnion ex (setUnion layers addl) := by simp [hx]
            rw [h0] at this; simp at this
          · intro x hx
            rw [← additionalLayers_eq haddl] at hx
            have : x ∈ setUnion ex (setUnion layers addl) := by simp [hx]
            rw [h0] at this; simp at this
          · intro x hx
            rw [← hexmem] at hx
            have : x ∈ setUnion ex (setUnion layers addl) := by simp [hx]
            rw [h0] at this; simp at this

end DG
end Dg
