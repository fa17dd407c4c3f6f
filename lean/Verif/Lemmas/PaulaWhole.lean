/-
PAULA export: names of the files, the whole document (C66).
-/
import Verif.Lemmas.PaulaFiles
import Verif.Lemmas.RelabelLoop
import Verif.Props.C45
import Verif.Props.C22

namespace Dg
open Dict (find keys vals put find_put mem_find find_some_mem nodup_put mem_keys_put mem_keys_iff find_eq_none_iff)

/-! ### names of files -/

/-- the characters after the last dot, reversed -/
def fileTail (s : String) : List Char := s.toList.reverse.takeWhile (fun c => c != '.')

theorem fileTail_append (x r : String) (h : '.' ∉ r.toList) : fileTail (x ++ ("." ++ r)) = r.toList.reverse := by
  unfold fileTail
  simp only [String.toList_append, List.reverse_append, List.append_assoc]
  rw [List.takeWhile_append_of_pos (by intro c hc; simp only [List.mem_reverse] at hc; simp; rintro rfl; exact h hc)]
  simp

theorem layerFile_layer (corpus name l kind : String) (h : '.' ∉ l.toList) : (layerFile corpus name l kind).toList.takeWhile (fun c => c != '.') = l.toList := by
  unfold layerFile
  rw [String.toList_append, List.takeWhile_append_of_pos (by intro c hc; simp; rintro rfl; exact h hc)]
  simp

theorem fileTail_doc (corpus name r : String) (h : '.' ∉ r.toList) : fileTail (docFile corpus name ("." ++ r)) = r.toList.reverse := by
  have : docFile corpus name ("." ++ r) = (corpus ++ ("." ++ name)) ++ ("." ++ r) := by simp [docFile, String.append_assoc]
  rw [this, fileTail_append _ _ h]

theorem fileTail_layer (corpus name l kind : String) (h : '.' ∉ (name ++ kind).toList) : fileTail (layerFile corpus name l kind) = (name ++ kind).toList.reverse := by
  have : layerFile corpus name l kind = (l ++ ("." ++ corpus)) ++ ("." ++ (name ++ kind)) := by simp [layerFile, String.append_assoc]
  rw [this, fileTail_append _ _ h]

theorem underscore_in_layer (corpus name l : String) (hl : '.' ∉ l.toList) (hn : '.' ∉ name.toList) : ∀ kind ∈ DG.layerKinds l, '_' ∈ fileTail (layerFile corpus name l kind) := by
  intro kind hk
  have hdot : ∀ s : String, '.' ∉ s.toList → '_' ∈ s.toList → '_' ∈ fileTail (layerFile corpus name l s) := by
    intro s hs hu
    rw [fileTail_layer _ _ _ _ (by rw [String.toList_append, List.mem_append]; rintro (h | h); exacts [hn h, hs h])]
    rw [String.toList_append, List.mem_reverse, List.mem_append]; exact Or.inr hu
  simp only [DG.layerKinds, List.mem_cons, List.not_mem_nil, or_false] at hk
  rcases hk with rfl | rfl | rfl | rfl | rfl | rfl | rfl
  · have : layerFile corpus name l ".tok_multiFeat" = (l ++ ("." ++ (corpus ++ ("." ++ name)))) ++ ("." ++ "tok_multiFeat") := by
      simp only [layerFile, String.append_assoc]; rfl
    rw [this, fileTail_append _ _ (by decide)]
    decide
  all_goals
    refine hdot _ ?_ (by simp)
    simp only [String.toList_append, List.mem_append]
    rintro h
    simp [hl] at h

theorem kinds_nodup (corpus name l : String) : ((DG.layerKinds l).map (layerFile corpus name l)).Nodup := by
  refine List.Nodup.map_on ?_ ?_
  · intro x _ y _ hxy
    simp only [layerFile, append_left_inj] at hxy
    exact hxy
  · have h0 : ∀ r, (".tok_multiFeat" : String) ≠ "_" ++ r := by
      intro r h
      have := congrArg String.toList h
      simp [String.toList_append] at this
    have e0 : ("_" ++ l : String) = "_" ++ (l ++ "") := by simp
    unfold DG.layerKinds
    rw [e0]
    simp only [List.nodup_cons, List.mem_cons, List.not_mem_nil, or_false, not_or, append_left_inj, List.nodup_nil, and_true, not_false_eq_true]
    refine ⟨⟨h0 _, h0 _, h0 _, h0 _, h0 _, h0 _⟩, ?_⟩
    decide

theorem names_nodup (corpus name : String) (layers : List String) (hn : '.' ∉ name.toList) (hl : ∀ l ∈ layers, '.' ∉ l.toList) (nd : layers.Nodup) :
    ([docFile corpus name ".text", docFile corpus name ".tok"] ++ layers.flatMap (fun l => (DG.layerKinds l).map (layerFile corpus name l)) ++ [docFile corpus name ".anno"]).Nodup := by
  have hdoc : ∀ r : String, '.' ∉ r.toList → '_' ∉ r.toList → docFile corpus name ("." ++ r) ∉ layers.flatMap (fun l => (DG.layerKinds l).map (layerFile corpus name l)) := by
    intro r h1 h2 hm
    obtain ⟨l, hll, hm⟩ := List.mem_flatMap.1 hm
    obtain ⟨k, hk, he⟩ := List.mem_map.1 hm
    have := underscore_in_layer corpus name l (hl l hll) hn k hk
    rw [he, fileTail_doc _ _ _ h1, List.mem_reverse] at this
    exact h2 this
  have htext := hdoc "text" (by decide) (by decide)
  have htok := hdoc "tok" (by decide) (by decide)
  have hanno := hdoc "anno" (by decide) (by decide)
  have hmid : (layers.flatMap (fun l => (DG.layerKinds l).map (layerFile corpus name l))).Nodup := by
    rw [List.nodup_flatMap]
    refine ⟨fun l _ => kinds_nodup corpus name l, ?_⟩
    refine nd.imp_of_mem ?_
    intro a b ha hb hab x hx hy
    obtain ⟨k, _, rfl⟩ := List.mem_map.1 hx
    obtain ⟨k', _, he⟩ := List.mem_map.1 hy
    have h1 := layerFile_layer corpus name a k (hl a ha)
    rw [← he, layerFile_layer corpus name b k' (hl b hb)] at h1
    exact hab (String.toList_inj.1 h1.symm)
  have hd : ∀ x y : String, docFile corpus name x = docFile corpus name y → x = y := by
    intro x y h; simpa only [docFile, append_left_inj] using h
  rw [List.nodup_append', List.nodup_append']
  refine ⟨⟨?_, hmid, ?_⟩, by simp, ?_⟩
  · simp only [List.nodup_cons, List.mem_singleton, List.not_mem_nil, not_false_eq_true, List.nodup_nil, and_true]
    intro h; exact absurd (hd _ _ h) (by decide)
  · intro x hx hy
    simp only [List.mem_cons, List.not_mem_nil, or_false] at hx
    rcases hx with rfl | rfl
    · exact htext hy
    · exact htok hy
  · intro x hx hy
    rw [List.mem_singleton] at hy; subst hy
    rw [List.mem_append] at hx
    rcases hx with hx | hx
    · simp only [List.mem_cons, List.not_mem_nil, or_false] at hx
      rcases hx with hx | hx <;> exact absurd (hd _ _ hx) (by decide)
    · exact hanno hx

namespace DG

theorem PaulaLayerSays.mono {g : DG} {snp : Bool} {corpus name l : String} {e files : PaulaFiles} (h : g.PaulaLayerSays snp corpus name l e)
    (hs : ∀ k x, find e k = some x → find files k = some x) : g.PaulaLayerSays snp corpus name l files := by
  obtain ⟨⟨i1, f1, r1⟩, ⟨d2, i2, f2, r2⟩, ⟨d3, i3, f3, r3⟩, ⟨d4, i4, f4, r4⟩, ⟨d5, i5, f5, r5⟩, ⟨d6, i6, f6, r6⟩, ⟨d7, i7, f7, r7⟩⟩ := h
  exact ⟨⟨i1, hs _ _ f1, r1⟩, ⟨d2, i2, hs _ _ f2, r2⟩, ⟨d3, i3, hs _ _ f3, r3⟩, ⟨d4, i4, hs _ _ f4, r4⟩, ⟨d5, i5, hs _ _ f5, r5⟩, ⟨d6, i6, hs _ _ f6, r6⟩, ⟨d7, i7, hs _ _ f7, r7⟩⟩

variable {g : DG} {strs : List String}

theorem paulaLayer_ok (h : PaulaReady g strs) (snp : Bool) (corpus name l : String) (hp : plain l = true) :
    ∃ e, keys e = (layerKinds l).map (layerFile corpus name l) ∧ g.PaulaLayerSays snp corpus name l e ∧
      ∀ files, (∀ k ∈ keys e, k ∉ keys files) → g.paulaLayer snp corpus name files l = .ok (files ++ e) := by
  obtain ⟨i1, f1, r1⟩ := paulaTokAnno_ok h corpus name l
  obtain ⟨d2, i2, f2, r2⟩ := paulaSeg_ok h snp corpus name l hp
  obtain ⟨d3, i3, f3, r3⟩ := paulaHierarchy_ok h corpus name l hp
  obtain ⟨d4, i4, f4, r4⟩ := paulaStruct_ok h corpus name l
  obtain ⟨d5, i5, f5, r5⟩ := paulaRelAnno_ok h corpus name l hp
  obtain ⟨d6, i6, f6, r6⟩ := paulaPointing_ok h corpus name l hp
  obtain ⟨d7, i7, f7, r7⟩ := paulaPointingAnno_ok h corpus name l hp
  let e : PaulaFiles := [(paulaLayerId corpus name l .tokAnno, (.feats (docFile corpus name ".tok.xml") i1, "paula_multiFeat.dtd")),
    (paulaLayerId corpus name l .seg, (.marks l (docFile corpus name ".tok.xml") i2, "paula_mark.dtd")),
    (paulaLayerId corpus name l .hierarchy, (.structs l i3, "paula_struct.dtd")),
    (paulaLayerId corpus name l .struct, (.feats (layerFile corpus name l ("_" ++ (l ++ ".xml"))) i4, "paula_multiFeat.dtd")),
    (paulaLayerId corpus name l .rel, (.feats (layerFile corpus name l ("_" ++ (l ++ ".xml"))) i5, "paula_multiFeat.dtd")),
    (paulaLayerId corpus name l .pointing, (.rels i6, "paula_rel.dtd")),
    (paulaLayerId corpus name l .pointingAnno, (.feats (layerFile corpus name l ("_" ++ (l ++ "_pointing.xml"))) i7, "paula_multiFeat.dtd"))]
  have hk : keys e = (layerKinds l).map (layerFile corpus name l) := rfl
  have nd : (keys e).Nodup := by rw [hk]; exact kinds_nodup corpus name l
  refine ⟨e, hk, ⟨⟨i1, mem_find nd ?_, r1⟩, ⟨d2, i2, mem_find nd ?_, r2⟩, ⟨d3, i3, mem_find nd ?_, r3⟩, ⟨d4, i4, mem_find nd ?_, r4⟩, ⟨d5, i5, mem_find nd ?_, r5⟩,
    ⟨d6, i6, mem_find nd ?_, r6⟩, ⟨d7, i7, mem_find nd ?_, r7⟩⟩, ?_⟩
  · exact List.mem_cons_self
  · exact List.mem_cons_of_mem _ List.mem_cons_self
  · exact List.mem_cons_of_mem _ (List.mem_cons_of_mem _ List.mem_cons_self)
  · exact List.mem_cons_of_mem _ (List.mem_cons_of_mem _ (List.mem_cons_of_mem _ List.mem_cons_self))
  · exact List.mem_cons_of_mem _ (List.mem_cons_of_mem _ (List.mem_cons_of_mem _ (List.mem_cons_of_mem _ List.mem_cons_self)))
  · exact List.mem_cons_of_mem _ (List.mem_cons_of_mem _ (List.mem_cons_of_mem _ (List.mem_cons_of_mem _ (List.mem_cons_of_mem _ List.mem_cons_self))))
  · exact List.mem_cons_of_mem _ (List.mem_cons_of_mem _ (List.mem_cons_of_mem _ (List.mem_cons_of_mem _ (List.mem_cons_of_mem _ (List.mem_cons_of_mem _ List.mem_cons_self)))))
  · intro files hd
    simp only [paulaLayer, f1, f2, f3, f4, f5, f6, f7, except_bind_ok]
    exact congrArg Except.ok (Dict.upd_of_disjoint files e nd hd)

theorem paulaLayers_ok (h : PaulaReady g strs) (snp : Bool) (corpus name : String) : ∀ (layers : List String) (files : PaulaFiles), (∀ l ∈ layers, plain l = true) →
    (keys files ++ layers.flatMap (fun l => (layerKinds l).map (layerFile corpus name l))).Nodup →
    ∃ es, layers.foldlM (g.paulaLayer snp corpus name) files = .ok (files ++ es) ∧ keys es = layers.flatMap (fun l => (layerKinds l).map (layerFile corpus name l)) ∧
      ∀ l ∈ layers, ∃ e, e ⊆ es ∧ g.PaulaLayerSays snp corpus name l e
  | [], files, _, _ => ⟨[], by simp [pure, Except.pure], rfl, by simp⟩
  | l :: layers, files, hp, nd => by
    obtain ⟨e, hk, hs, hf⟩ := paulaLayer_ok h snp corpus name l (hp l (by simp))
    have hkeys : ∀ (a b : PaulaFiles), keys (a ++ b) = keys a ++ keys b := by intro a b; simp [keys]
    rw [List.flatMap_cons, ← List.append_assoc] at nd
    have nd' : (keys (files ++ e) ++ layers.flatMap (fun l => (layerKinds l).map (layerFile corpus name l))).Nodup := by rw [hkeys, hk]; exact nd
    obtain ⟨es, e1, e2, e3⟩ := paulaLayers_ok h snp corpus name layers (files ++ e) (fun x hx => hp x (List.mem_cons_of_mem _ hx)) nd'
    refine ⟨e ++ es, ?_, by rw [hkeys, hk, e2, List.flatMap_cons], ?_⟩
    · rw [List.foldlM_cons, hf files ?_, except_bind_ok, e1, List.append_assoc]
      intro k hk1 hk2
      rw [hk] at hk1
      rw [List.nodup_append', List.nodup_append'] at nd
      exact nd.1.2.2 hk2 hk1
    · intro l' hl'
      rcases List.mem_cons.1 hl' with rfl | hl'
      · exact ⟨e, List.subset_append_left _ _, hs⟩
      · obtain ⟨e', h1, h2⟩ := e3 l' hl'
        exact ⟨e', fun x hx => List.mem_append_right _ (h1 hx), h2⟩

theorem paulaName_noDot (s : String) : '.' ∉ (paulaName s).toList := by
  unfold paulaName
  rw [String.toList_ofList]
  intro h
  have := List.all_eq_true.1 (List.all_takeWhile (p := fun c => c != '.') (l := s.toList)) _ h
  simp at this

/-- the document for a graph whose node IDs are already fit for XPointers -/
theorem paulaSays_ready (h : PaulaReady g strs) (snp : Bool) (corpus name : String) (layers : List String) (hp : ∀ l ∈ layers, plain l = true ∧ '.' ∉ l.toList)
    (nd : layers.Nodup) (hn : '.' ∉ name.toList) :
    ∃ t k files, g.paulaText = .ok t ∧ g.paulaTok corpus name = .ok k ∧
      layers.foldlM (g.paulaLayer snp corpus name)
        [(paulaDocId corpus name "text", (t, "paula_text.dtd")), (paulaDocId corpus name "tok", (k, "paula_mark.dtd"))] = .ok files ∧
      g.PaulaSays snp corpus name strs layers (Dict.put files (paulaDocId corpus name "anno") (paulaAnnoset files, "paula_struct.dtd")) := by
  obtain ⟨items, t1, t2, t3, t4⟩ := paulaTok_ok h corpus name
  have hnd := names_nodup corpus name layers hn (fun l hl => (hp l hl).2) nd
  have hnd' := hnd
  rw [List.nodup_append'] at hnd
  let f0 : PaulaFiles := [(paulaDocId corpus name "text", (.text (pyJoin " " strs), "paula_text.dtd")),
    (paulaDocId corpus name "tok", (.marks "tok" (docFile corpus name ".text.xml") items, "paula_mark.dtd"))]
  have hk0 : keys f0 = [docFile corpus name ".text", docFile corpus name ".tok"] := rfl
  obtain ⟨es, e1, e2, e3⟩ := paulaLayers_ok h snp corpus name layers f0 (fun l hl => (hp l hl).1) (by rw [hk0]; exact hnd.1)
  refine ⟨_, _, f0 ++ es, paulaText_ok h, t1, e1, ?_⟩
  have hkeys : ∀ (a b : PaulaFiles), keys (a ++ b) = keys a ++ keys b := by intro a b; simp [keys]
  have hkf : keys (f0 ++ es) = [docFile corpus name ".text", docFile corpus name ".tok"] ++ layers.flatMap (fun l => (layerKinds l).map (layerFile corpus name l)) := by
    rw [hkeys, e2]; rfl
  have hanno : paulaDocId corpus name "anno" = docFile corpus name ".anno" := rfl
  have hfresh : docFile corpus name ".anno" ∉ keys (f0 ++ es) := by
    rw [hkf]; intro hc; exact hnd.2.2 hc (by simp)
  rw [hanno, Dict.put_of_not_mem _ _ _ hfresh]
  have hnames : keys ((f0 ++ es) ++ [(docFile corpus name ".anno", (paulaAnnoset (f0 ++ es), "paula_struct.dtd"))]) =
      [docFile corpus name ".text", docFile corpus name ".tok"] ++ layers.flatMap (fun l => (layerKinds l).map (layerFile corpus name l)) ++ [docFile corpus name ".anno"] := by
    rw [hkeys, hkf]; rfl
  have hall : (keys ((f0 ++ es) ++ [(docFile corpus name ".anno", (paulaAnnoset (f0 ++ es), "paula_struct.dtd"))])).Nodup := by rw [hnames]; exact hnd'
  have hmem : ∀ k x, (k, x) ∈ (f0 ++ es) ++ [(docFile corpus name ".anno", (paulaAnnoset (f0 ++ es), "paula_struct.dtd"))] →
      find ((f0 ++ es) ++ [(docFile corpus name ".anno", (paulaAnnoset (f0 ++ es), "paula_struct.dtd"))]) k = some x := fun k x hx => mem_find hall hx
  refine ⟨hnames, hall, hmem _ _ (by simp [f0, docFile, paulaDocId]), ⟨items, hmem _ _ (by simp [f0, docFile, paulaDocId]), t2, t3, t4⟩, ?_, ?_⟩
  · intro l hl
    obtain ⟨e, he, hs⟩ := e3 l hl
    refine hs.mono (fun k x hx => hmem k x ?_)
    exact List.mem_append_left _ (List.mem_append_right _ (he (find_some_mem hx)))
  · refine ⟨(keys (f0 ++ es)).zipIdx.map (fun x => ("rel_" ++ String.ofList (decimal x.2), x.1 ++ ".xml")), hmem _ _ ?_, ?_, ?_⟩
    · exact List.mem_append_right _ (by simp [paulaAnnoset])
    · rw [List.map_map]
      have : (Prod.fst ∘ fun x : String × Nat => ("rel_" ++ String.ofList (decimal x.2), x.1 ++ ".xml")) = (fun n : Nat => "rel_" ++ String.ofList (decimal n)) ∘ Prod.snd := rfl
      rw [this, ← List.map_map]
      refine List.Nodup.map_on ?_ ?_
      · intro a _ b _ hab
        rw [append_left_inj] at hab
        exact decimal_injective (String.ofList_injective hab)
      · rw [List.zipIdx_map_snd]; exact List.nodup_range'
    · rw [List.map_map]
      have : (Prod.snd ∘ fun x : String × Nat => ("rel_" ++ String.ofList (decimal x.2), x.1 ++ ".xml")) = (fun s : String => s ++ ".xml") ∘ Prod.fst := rfl
      rw [this, ← List.map_map, List.zipIdx_map_fst, hnames, ← hkf, List.dropLast_concat]

theorem getTopLevelLayers_nodup {r : List Atom} (h : g.getTopLevelLayers = .ok r) : r.Nodup := by
  have hfold : ∀ (ts acc : List Atom), acc.Nodup → (ts.foldl setAdd acc).Nodup := by
    intro ts
    induction ts with
    | nil => intro acc h; exact h
    | cons t ts ih => intro acc h; exact ih _ (nodup_setAdd h t)
  unfold getTopLevelLayers at h
  cases h1 : g.getAnnotationLayers with
  | error e => simp [h1, bind, Except.bind] at h
  | ok ls =>
    cases h2 : ls.mapM topLevel with
    | error e => simp [h1, h2, bind, Except.bind] at h
    | ok ts =>
      simp only [h1, h2, bind, Except.bind] at h
      cases h
      exact hfold _ _ (by simp)

end DG
end Dg
