import Verif.Spec.FindFiles
import Verif.Props.C73

namespace Dg
namespace FsDir

/-! ### paths -/

theorem join_root {root stem n : List Char} (h : RootIs root stem) : join root n = stem ++ '/' :: n := by
  unfold join
  rcases h with ⟨rfl, h1, h2⟩ | ⟨rfl, rfl⟩
  · rw [if_neg (by rintro (k | k); exacts [h1 k, h2 k])]
  · rw [if_pos (.inr rfl)]; rfl

theorem rootIs_join {root stem n : List Char} (h : RootIs root stem) (hn : IsName n) : RootIs (join root n) (stem ++ '/' :: n) := by
  rw [join_root h]
  refine .inl ⟨rfl, by simp, ?_⟩
  rw [List.getLast?_append, List.getLast?_cons]
  intro k
  cases hl : n.getLast? with
  | none => exact hn.1 (List.getLast?_eq_none_iff.1 hl)
  | some c =>
    rw [hl] at k
    simp only [Option.getD_some, Option.some_or, Option.some.injEq] at k
    exact hn.2 (k ▸ List.mem_of_getLast? hl)

theorem pathOf_cons (stem n : List Char) (p : List (List Char)) : pathOf stem (n :: p) = pathOf (stem ++ '/' :: n) p := by
  simp [pathOf]

theorem fileAt_names {d : FsDir} {p : List (List Char)} (h : FileAt d p) : Ok d → (∀ n ∈ p, IsName n) ∧ ∃ n q, p = n :: q ∧ HasName d n := by
  induction h with
  | here => intro o; cases o with | file h1 _ _ => exact ⟨by simpa using h1, _, _, rfl, .file⟩
  | inside h ih =>
    intro o
    cases o with
    | dir h1 _ h3 _ =>
      obtain ⟨k, -⟩ := ih h3
      exact ⟨fun m hm => (List.mem_cons.1 hm).elim (fun e => e ▸ h1) (k m), _, _, rfl, .dir⟩
  | file h ih => intro o; cases o with | file _ _ h3 => obtain ⟨k, n, q, e, hn⟩ := ih h3; exact ⟨k, n, q, e, .afterFile hn⟩
  | dir h ih => intro o; cases o with | dir _ _ _ h4 => obtain ⟨k, n, q, e, hn⟩ := ih h4; exact ⟨k, n, q, e, .afterDir hn⟩
  | denied h ih => intro o; cases o with | denied _ _ h3 => obtain ⟨k, n, q, e, hn⟩ := ih h3; exact ⟨k, n, q, e, .afterDenied hn⟩
  | link h ih => intro o; cases o with | link _ _ h3 => obtain ⟨k, n, q, e, hn⟩ := ih h3; exact ⟨k, n, q, e, .afterLink hn⟩

theorem slash_split {a b x y : List Char} (ha : '/' ∉ a) (hb : '/' ∉ b) (hx : x = [] ∨ ∃ z, x = '/' :: z) (hy : y = [] ∨ ∃ z, y = '/' :: z) (h : a ++ x = b ++ y) : a = b ∧ x = y := by
  induction a generalizing b with
  | nil =>
    cases b with
    | nil => exact ⟨rfl, by simpa using h⟩
    | cons c b =>
      rcases hx with rfl | ⟨z, rfl⟩
      · simp at h
      · simp only [List.nil_append, List.cons_append, List.cons.injEq] at h
        exact absurd (h.1 ▸ List.mem_cons_self) hb
  | cons c a ih =>
    cases b with
    | nil =>
      rcases hy with rfl | ⟨z, rfl⟩
      · simp at h
      · simp only [List.nil_append, List.cons_append, List.cons.injEq] at h
        exact absurd (h.1 ▸ List.mem_cons_self) ha
    | cons c' b =>
      simp only [List.cons_append, List.cons.injEq] at h
      obtain ⟨rfl, h⟩ := h
      obtain ⟨k1, k2⟩ := ih (fun k => ha (List.mem_cons_of_mem _ k)) (fun k => hb (List.mem_cons_of_mem _ k)) h
      exact ⟨by rw [k1], k2⟩

theorem flatMap_slash (p : List (List Char)) : p.flatMap (fun n => '/' :: n) = [] ∨ ∃ z, p.flatMap (fun n => '/' :: n) = '/' :: z := by
  cases p with
  | nil => exact .inl rfl
  | cons n p => exact .inr ⟨_, rfl⟩

/-- different names make different paths -/
theorem pathOf_inj (stem : List Char) : ∀ {p q : List (List Char)}, (∀ n ∈ p, IsName n) → (∀ n ∈ q, IsName n) → pathOf stem p = pathOf stem q → p = q := by
  intro p q hp hq h
  have h : p.flatMap (fun n => '/' :: n) = q.flatMap (fun n => '/' :: n) := List.append_cancel_left h
  induction p generalizing q with
  | nil => cases q with
    | nil => rfl
    | cons => simp at h
  | cons n p ih =>
    cases q with
    | nil => simp at h
    | cons m q =>
      simp only [List.flatMap_cons, List.cons_append, List.cons.injEq, true_and] at h
      obtain ⟨k1, k2⟩ := slash_split (hp n List.mem_cons_self).2 (hq m List.mem_cons_self).2 (flatMap_slash p) (flatMap_slash q) h
      rw [k1, ih (fun k hk => hp k (List.mem_cons_of_mem _ hk)) (fun k hk => hq k (List.mem_cons_of_mem _ hk)) (by rw [pathOf, pathOf, k2]) k2]

/-! ### what is found, as lists of names -/

/-- the files with the names of their directories -/
def names : FsDir → List (List (List Char))
  | nil => []
  | file n r => [n] :: names r
  | dir n s r => (names s).map (n :: ·) ++ names r
  | denied _ r => names r
  | link _ r => names r

theorem mem_names {d : FsDir} {p : List (List Char)} : p ∈ names d ↔ FileAt d p := by
  constructor
  · intro h
    induction d generalizing p with
    | nil => cases h
    | file n r ih => rcases List.mem_cons.1 h with rfl | h; exacts [.here, .file (ih h)]
    | dir n s r ihs ih =>
      rcases List.mem_append.1 h with h | h
      · obtain ⟨q, hq, rfl⟩ := List.mem_map.1 h; exact .inside (ihs hq)
      · exact .dir (ih h)
    | denied n r ih => exact .denied (ih h)
    | link n r ih => exact .link (ih h)
  · intro h
    induction h with
    | here => exact List.mem_cons_self
    | inside _ ih => exact List.mem_append_left _ (List.mem_map.2 ⟨_, ih, rfl⟩)
    | file _ ih => exact List.mem_cons_of_mem _ ih
    | dir _ ih => exact List.mem_append_right _ ih
    | denied _ ih => exact ih
    | link _ ih => exact ih

theorem nodup_names {d : FsDir} (o : Ok d) : (names d).Nodup := by
  have fresh : ∀ {r : FsDir} {n : List Char}, Ok r → ¬ HasName r n → ∀ q, n :: q ∉ names r := by
    intro r n o hn q h
    obtain ⟨-, m, q', e, hm⟩ := fileAt_names (mem_names.1 h) o
    cases e
    exact hn hm
  induction o with
  | nil => exact List.nodup_nil
  | file _ h2 h3 ih => exact List.nodup_cons.2 ⟨fresh h3 h2 [], ih⟩
  | dir _ h2 h3 h4 ihs ih =>
    refine List.nodup_append.2 ⟨ihs.map (fun a b h => (List.cons.inj h).2), ih, ?_⟩
    intro a ha b hb e
    subst e
    obtain ⟨q, _, rfl⟩ := List.mem_map.1 ha
    exact fresh h4 h2 q hb
  | denied _ _ _ ih => exact ih
  | link _ _ _ ih => exact ih

/-- the last name fits the pattern -/
def fits (pattern : List Char) (p : List (List Char)) : Bool := fnmatch pattern (p.getLast?.getD [])

/-- `findFiles` finds the paths of the files, in another order -/
theorem found_perm (pattern : List Char) {d : FsDir} (o : Ok d) : ∀ {root stem : List Char}, RootIs root stem →
    (matching pattern root d ++ walkSubs pattern root d).Perm (((names d).filter (fits pattern)).map (pathOf stem)) := by
  induction o with
  | nil => intro root stem _; exact .nil
  | @file n r h1 _ _ ih =>
    intro root stem h
    have h0 : matching pattern root (.file n r) = (if fnmatch pattern n = true then [pathOf stem [n]] else []) ++ matching pattern root r := by
      unfold matching
      rw [show files (.file n r) = n :: files r from rfl, List.filter_cons]
      split
      · rw [List.map_cons, join_root h]; simp [pathOf]
      · rfl
    have h1 : names (.file n r) = [n] :: names r := rfl
    have h2 : walkSubs pattern root (.file n r) = walkSubs pattern root r := rfl
    rw [h0, h1, h2, List.filter_cons, List.append_assoc]
    have h3 : fits pattern [n] = fnmatch pattern n := rfl
    rw [h3]
    split
    · exact (ih h).cons _
    · exact ih h
  | @dir n s r h1 _ _ _ ihs ih =>
    intro root stem h
    have h0 : matching pattern root (.dir n s r) = matching pattern root r := rfl
    have h2 : walkSubs pattern root (.dir n s r) = (matching pattern (join root n) s ++ walkSubs pattern (join root n) s) ++ walkSubs pattern root r := rfl
    have h3 : names (.dir n s r) = (names s).map (n :: ·) ++ names r := rfl
    have h4 : ((((names s).map (n :: ·)).filter (fits pattern)).map (pathOf stem)) = ((names s).filter (fits pattern)).map (pathOf (stem ++ '/' :: n)) := by
      rw [List.filter_map, List.map_map]
      have : (names s).filter (fits pattern ∘ (n :: ·)) = (names s).filter (fits pattern) := by
        refine List.filter_congr ?_
        intro p hp
        have hne : p ≠ [] := by
          rintro rfl
          obtain ⟨-, m, q, e, -⟩ := fileAt_names (mem_names.1 hp) (by assumption)
          cases e
        simp only [Function.comp, fits, List.getLast?_cons_of_ne_nil hne]
      rw [this]
      exact List.map_congr_left (fun p _ => pathOf_cons stem n p)
    rw [h0, h2, h3, List.filter_append, List.map_append, h4]
    refine List.Perm.trans ?_ ((ihs (rootIs_join h h1)).append (ih h))
    rw [← List.append_assoc (matching pattern root r)]
    generalize matching pattern (join root n) s ++ walkSubs pattern (join root n) s = a
    rw [List.append_assoc]
    exact List.perm_append_comm_assoc _ _ _
  | denied _ _ _ ih => intro root stem h; exact ih h
  | link _ _ _ ih => intro root stem h; exact ih h

/-- **C81 (files)**.  `find_files` of a directory finds exactly the files below it, at any depth, whose names fit the pattern, with their absolute paths. -/
theorem c81_found (pattern : List Char) {root stem : List Char} (h : RootIs root stem) {d : FsDir} (o : Ok d) (f : List Char) :
    f ∈ findFiles pattern root (some d) ↔ ∃ p n, FileAt d (p ++ [n]) ∧ FitsGlob pattern n ∧ f = pathOf stem (p ++ [n]) := by
  show f ∈ matching pattern root d ++ walkSubs pattern root d ↔ _
  rw [(found_perm pattern o h).mem_iff]
  simp only [List.mem_map, List.mem_filter, mem_names, fits]
  constructor
  · rintro ⟨p, ⟨h1, h2⟩, rfl⟩
    obtain ⟨-, m, q, e, -⟩ := fileAt_names h1 o
    have hne : p ≠ [] := by rw [e]; simp
    refine ⟨p.dropLast, p.getLast hne, ?_, ?_, ?_⟩
    · rw [List.dropLast_append_getLast]; exact h1
    · rw [List.getLast?_eq_some_getLast hne] at h2; exact (c73_patterns _ _).1 h2
    · rw [List.dropLast_append_getLast]
  · rintro ⟨p, n, h1, h2, rfl⟩
    exact ⟨_, ⟨h1, by simpa using (c73_patterns _ _).2 h2⟩, rfl⟩

/-- **C81 (once)**.  Each file is found once. -/
theorem c81_once (pattern : List Char) {root stem : List Char} (h : RootIs root stem) {d : FsDir} (o : Ok d) : (findFiles pattern root (some d)).Nodup := by
  show (matching pattern root d ++ walkSubs pattern root d).Nodup
  rw [(found_perm pattern o h).nodup_iff]
  refine List.Nodup.map_on ?_ ((nodup_names o).filter _)
  intro p hp q hq e
  exact pathOf_inj stem (fileAt_names (mem_names.1 (List.mem_filter.1 hp).1) o).1 (fileAt_names (mem_names.1 (List.mem_filter.1 hq).1) o).1 e

/-- **C81 (order)**.  The order in which directories are listed decides on nothing but the order of the files. -/
theorem c81_order (pattern : List Char) {root stem : List Char} (h : RootIs root stem) {d d' : FsDir} (o : Ok d) (o' : Ok d') (hd : ∀ p, FileAt d p ↔ FileAt d' p) :
    (findFiles pattern root (some d)).Perm (findFiles pattern root (some d')) := by
  refine (List.perm_ext_iff_of_nodup (c81_once pattern h o) (c81_once pattern h o')).2 (fun f => ?_)
  rw [c81_found pattern h o, c81_found pattern h o']
  simp only [hd]

/-- **C81 (all files)**.  The pattern `*` (the default) fits every file. -/
theorem c81_all {root stem : List Char} (h : RootIs root stem) {d : FsDir} (o : Ok d) (f : List Char) : f ∈ findFiles ['*'] root (some d) ↔ ∃ p, FileAt d p ∧ f = pathOf stem p := by
  rw [c81_found _ h o]
  constructor
  · rintro ⟨p, n, h1, -, e⟩; exact ⟨_, h1, e⟩
  · rintro ⟨p, h1, e⟩
    obtain ⟨-, m, q, e', -⟩ := fileAt_names h1 o
    have hne : p ≠ [] := by rw [e']; simp
    refine ⟨p.dropLast, p.getLast hne, ?_, .star (List.nil_suffix) .nil, ?_⟩
    · rw [List.dropLast_append_getLast]; exact h1
    · rw [List.dropLast_append_getLast]; exact e

/-- **C81 (no directory)**.  Nothing is found, and there is no error, if there is no such directory (or if it cannot be listed, or if it is a file). -/
theorem c81_no_directory (fs : List Char → List Char × Option FsDir) (path pattern : List Char) (h : (fs path).2 = none) : findFilesIn fs (.str path) pattern = [] := by
  show findFiles pattern (fs path).1 (fs path).2 = []
  rw [h]; rfl

/-- **C81 (lists)**.  Of a list of files, those are found that fit the pattern with their whole path, in order. -/
theorem c81_list (fs : List Char → List Char × Option FsDir) (files : List (List Char)) (pattern : List Char) :
    (findFilesIn fs (.list files) pattern).Sublist files ∧ ∀ f, f ∈ findFilesIn fs (.list files) pattern ↔ f ∈ files ∧ FitsGlob pattern f := by
  refine ⟨List.filter_sublist, fun f => ?_⟩
  show f ∈ findInList pattern files ↔ _
  unfold findInList
  rw [List.mem_filter, c73_patterns]

/-- **C81** fails for directories given as `unicode` objects: instead of the files in the directory, the characters of its name are found. -/
theorem c81_fails_unicode (fs : List Char → List Char × Option FsDir) (path : List Char) : findFilesIn fs (.unicode path) ['*'] = path.map (fun c => [c]) := by
  show findInList _ _ = _
  unfold findInList
  rw [List.filter_eq_self]
  intro f _
  exact (c73_patterns _ _).2 (.star List.nil_suffix .nil)

/-! ### the corpus -/

/-- a directory with different names: stem -/
theorem rootIs_layer {path stem : List Char} (h : RootIs path stem) (l : PccLayer) : RootIs (join path l.directory) (stem ++ '/' :: l.directory) :=
  rootIs_join h (by cases l <;> exact ⟨by decide, by decide⟩)

theorem pcc_layers {path stem : List Char} (h : RootIs path stem) (dirs : List Char → Option FsDir) (l : PccLayer) (o : ∀ d, dirs l.directory = some d → Ok d) :
    ((Pcc.make path dirs).layers l).Nodup ∧ ∀ f, f ∈ (Pcc.make path dirs).layers l ↔
      ∃ d p n, dirs l.directory = some d ∧ FileAt d (p ++ [n]) ∧ FitsGlob l.pattern n ∧ f = stem ++ '/' :: (l.directory ++ pathOf [] (p ++ [n])) := by
  show (findFiles l.pattern (join path l.directory) (dirs l.directory)).Nodup ∧ ∀ f, f ∈ findFiles l.pattern (join path l.directory) (dirs l.directory) ↔ _
  cases hd : dirs l.directory with
  | none => exact ⟨List.nodup_nil, fun f => ⟨fun h => (nomatch h), fun ⟨d, _, _, e, _⟩ => (nomatch e)⟩⟩
  | some d =>
    have hr := rootIs_layer h l
    refine ⟨c81_once _ hr (o d hd), fun f => ?_⟩
    rw [c81_found _ hr (o d hd)]
    have e : ∀ q : List (List Char), pathOf (stem ++ '/' :: l.directory) q = stem ++ '/' :: (l.directory ++ pathOf [] q) := by intro q; simp [pathOf]
    constructor
    · rintro ⟨p, n, h1, h2, rfl⟩; exact ⟨d, p, n, rfl, h1, h2, e _⟩
    · rintro ⟨_, p, n, h0, h1, h2, rfl⟩; cases h0; exact ⟨p, n, h1, h2, (e _).symm⟩

theorem fits_literal {p : List Char} : ∀ {lit : List Char} {s : List Char}, (∀ c ∈ lit, c ≠ '*' ∧ c ≠ '?') → (FitsGlob (lit ++ p) s ↔ ∃ r, s = lit ++ r ∧ FitsGlob p r)
  | [], s, _ => ⟨fun h => ⟨s, rfl, h⟩, fun ⟨_, e, h⟩ => by rw [e]; exact h⟩
  | c :: lit, s, hc => by
    have h0 := hc c List.mem_cons_self
    have ih := fun s => fits_literal (p := p) (lit := lit) (s := s) (fun x hx => hc x (List.mem_cons_of_mem _ hx))
    constructor
    · intro h
      cases h with
      | star _ _ => exact absurd rfl h0.1
      | any _ _ => exact absurd rfl h0.2
      | same _ k => obtain ⟨r, e, k'⟩ := (ih _).1 k; exact ⟨r, by rw [e]; rfl, k'⟩
    · rintro ⟨r, rfl, h⟩
      exact .same h0.1 ((ih _).2 ⟨r, rfl, h⟩)

/-- a pattern with one `*` -/
theorem fits_star {a b s : List Char} (ha : ∀ c ∈ a, c ≠ '*' ∧ c ≠ '?') (hb : ∀ c ∈ b, c ≠ '*' ∧ c ≠ '?') : FitsGlob (a ++ '*' :: b) s ↔ ∃ m, s = a ++ (m ++ b) := by
  rw [fits_literal ha]
  refine fits_star_aux (fun r _ => ?_)
  constructor
  · intro h
    cases h with
    | star h1 k =>
      obtain ⟨r', e, k'⟩ := (fits_literal (p := []) (lit := b) hb).1 (by rw [List.append_nil]; exact k)
      cases k'
      obtain ⟨m, e'⟩ := h1
      exact ⟨m, by rw [← e', e, List.append_nil]⟩
    | same h1 _ => exact absurd rfl h1
  · rintro ⟨m, rfl⟩
    refine .star (List.suffix_append m b) ?_
    have := (fits_literal (p := []) (lit := b) (s := b) hb).2 ⟨[], by simp, .nil⟩
    rwa [List.append_nil] at this
where
  fits_star_aux {a b s : List Char} (h : ∀ r, s = a ++ r → (FitsGlob ('*' :: b) r ↔ ∃ m, r = m ++ b)) : (∃ r, s = a ++ r ∧ FitsGlob ('*' :: b) r) ↔ ∃ m, s = a ++ (m ++ b) :=
    ⟨fun ⟨r, e, k⟩ => by obtain ⟨m, rfl⟩ := (h r e).1 k; exact ⟨m, e⟩, fun ⟨m, e⟩ => ⟨m ++ b, e, (h _ e).2 ⟨m, rfl⟩⟩⟩

/-- **C81 (layers)**.  The annotation layers of the corpus are in the directories `connectors`, `coreference`, `rst` and `syntax`; their files are called `maz….xml`, `maz….mmax`, `maz….rs3` and `maz….xml`. -/
theorem c81_layers {l : PccLayer} {dir ext : List Char} (h : LayerFiles l dir ext) : l.directory = dir ∧ ∀ n, FitsGlob l.pattern n ↔ ∃ m, n = "maz".toList ++ (m ++ '.' :: ext) := by
  cases h <;> exact ⟨rfl, fun n => fits_star (a := "maz".toList) (b := '.' :: _) (by decide) (by decide)⟩

/-- **C81 (corpus)**.  The files of an annotation layer of the PCC are the files below the directory of the layer, at any depth, which are called `maz….` with the extension of the layer; each of them once. -/
theorem c81_corpus {path stem : List Char} (h : RootIs path stem) (dirs : List Char → Option FsDir) {l : PccLayer} {dir ext : List Char} (hl : LayerFiles l dir ext) (o : ∀ d, dirs dir = some d → Ok d) :
    ((Pcc.make path dirs).layers l).Nodup ∧ ∀ f, f ∈ (Pcc.make path dirs).layers l ↔
      ∃ d p m, dirs dir = some d ∧ FileAt d (p ++ ["maz".toList ++ (m ++ '.' :: ext)]) ∧ f = stem ++ '/' :: (dir ++ pathOf [] (p ++ ["maz".toList ++ (m ++ '.' :: ext)])) := by
  obtain ⟨rfl, hn⟩ := c81_layers hl
  refine ⟨(pcc_layers h dirs l o).1, fun f => ?_⟩
  rw [(pcc_layers h dirs l o).2]
  constructor
  · rintro ⟨d, p, n, h1, h2, h3, rfl⟩
    obtain ⟨m, rfl⟩ := (hn n).1 h3
    exact ⟨d, p, m, h1, h2, rfl⟩
  · rintro ⟨d, p, m, h1, h2, rfl⟩
    exact ⟨d, p, _, h1, h2, (hn _).2 ⟨m, rfl⟩, rfl⟩

/-- **C81 (documents)**, partial.  The files that a document of the corpus is made of are, for each layer, the files called `<ID>.<extension>` below the directory of the layer whose names fit the pattern of the layer.
Missing: file names that fit a pattern but are not an ID and an extension; directories with the ID and a dot in their path (c73_fails_directory). -/
theorem c81_document_files_partial {path stem : List Char} (h : RootIs path stem) (dirs : List Char → Option FsDir) (o : ∀ (l : PccLayer) d, dirs l.directory = some d → Ok d)
    {order : List PccLayer} (ho : ∀ l, l ∈ order) {d : List Char} (hd : IsDocId d)
    (hc : ∀ (l : PccLayer) t p n, dirs l.directory = some t → FileAt t (p ++ [n]) → FitsGlob l.pattern n →
      (∃ e ext, IsDocId e ∧ '.' ∉ ext ∧ n = e ++ '.' :: ext) ∧ ¬ d ++ ['.'] <:+: stem ++ '/' :: (l.directory ++ pathOf [] p)) (l : PccLayer) (f : List Char) :
    (l, f) ∈ (Pcc.make path dirs).docFiles order d ↔
      ∃ t p ext, dirs l.directory = some t ∧ FileAt t (p ++ [d ++ '.' :: ext]) ∧ FitsGlob l.pattern (d ++ '.' :: ext) ∧ '.' ∉ ext ∧
        f = stem ++ '/' :: (l.directory ++ pathOf [] (p ++ [d ++ '.' :: ext])) := by
  rw [docFiles_mem _ ho, (pcc_layers h dirs l (o l)).2]
  have hfile : ∀ {t p n e ext}, dirs l.directory = some t → FileAt t (p ++ [n]) → '.' ∉ ext → n = e ++ '.' :: ext →
      FileOf (stem ++ '/' :: (l.directory ++ pathOf [] p)) e (stem ++ '/' :: (l.directory ++ pathOf [] (p ++ [n]))) := by
    intro t p n e ext h1 h2 h3 h4
    have hn : IsName n := (fileAt_names h2 (o l t h1)).1 n (by simp)
    refine ⟨ext, h3, fun k => hn.2 (by rw [h4]; simp [k]), ?_⟩
    rw [h4]; simp [pathOf]
  constructor
  · rintro ⟨⟨t, p, n, h1, h2, h3, rfl⟩, h4⟩
    obtain ⟨⟨e, ext, k1, k2, k3⟩, k4⟩ := hc l t p n h1 h2 h3
    have := (c73_files hd k1 (hfile h1 h2 k2 k3) k4).1 h4
    subst this
    subst k3
    exact ⟨t, p, ext, h1, h2, h3, k2, rfl⟩
  · rintro ⟨t, p, ext, h1, h2, h3, h4, rfl⟩
    exact ⟨⟨t, p, _, h1, h2, h3, rfl⟩, (c73_files hd hd (hfile h1 h2 h4 rfl) (hc l t p _ h1 h2 h3).2).2 rfl⟩

/-! ### examples -/

/-- the directory of the RST layer: two files, other things, and a subdirectory with a third file -/
def c81Rst : FsDir := .file "maz-12.rs3".toList (.dir "old".toList (.file "maz-3.rs3".toList (.file "maz-3.txt".toList .nil)) (.link "new".toList (.denied "private".toList (.file "README".toList (.file "maz-2.rs3".toList .nil)))))

/-- the corpus: only this directory -/
def c81Dirs (l : List Char) : Option FsDir := if l = "rst".toList then some c81Rst else none

/-- all names, for the examples -/
def nameList : FsDir → List (List Char)
  | nil => []
  | file n r => n :: nameList r
  | dir n _ r => n :: nameList r
  | denied n r => n :: nameList r
  | link n r => n :: nameList r

theorem mem_nameList {d : FsDir} {n : List Char} (h : HasName d n) : n ∈ nameList d := by induction h <;> simp_all [nameList]

theorem hasName_not {d : FsDir} {n : List Char} (h : n ∉ nameList d) : ¬ HasName d n := fun k => h (mem_nameList k)

theorem c81Rst_ok : Ok c81Rst := by
  refine .file ⟨by decide, by decide⟩ (hasName_not (by decide +kernel)) (.dir ⟨by decide, by decide⟩ (hasName_not (by decide +kernel)) (.file ⟨by decide, by decide⟩ (hasName_not (by decide +kernel)) (.file ⟨by decide, by decide⟩ (hasName_not (by decide +kernel)) .nil)) ?_)
  exact .link ⟨by decide, by decide⟩ (hasName_not (by decide +kernel)) (.denied ⟨by decide, by decide⟩ (hasName_not (by decide +kernel)) (.file ⟨by decide, by decide⟩ (hasName_not (by decide +kernel)) (.file ⟨by decide, by decide⟩ (hasName_not (by decide +kernel)) .nil)))

theorem c81_root : RootIs "/d".toList "/d".toList := .inl ⟨rfl, by decide, by decide⟩

/-- the conditions of `c81_found`, `c81_once` and `c81_all` are met -/
example (f : List Char) : f ∈ findFiles "maz*.rs3".toList "/d".toList (some c81Rst) ↔ ∃ p n, FileAt c81Rst (p ++ [n]) ∧ FitsGlob "maz*.rs3".toList n ∧ f = pathOf "/d".toList (p ++ [n]) := c81_found _ c81_root c81Rst_ok f
example : findFiles "maz*.rs3".toList "/d".toList (some c81Rst) = ["/d/maz-12.rs3".toList, "/d/maz-2.rs3".toList, "/d/old/maz-3.rs3".toList] := by decide +kernel
example : (findFiles ['*'] "/".toList (some c81Rst)).Nodup := c81_once _ (.inr ⟨rfl, rfl⟩) c81Rst_ok
example : "/maz-2.rs3".toList ∈ findFiles ['*'] "/".toList (some c81Rst) := (c81_all (.inr ⟨rfl, rfl⟩) c81Rst_ok _).2 ⟨["maz-2.rs3".toList], by unfold c81Rst; exact .file (.dir (.link (.denied (.file .here)))), by decide +kernel⟩

/-- … and those of `c81_order`: the same directory, listed in another order -/
example : (findFiles ['*'] "/d".toList (some (.file "b".toList (.file "a".toList .nil)))).Perm (findFiles ['*'] "/d".toList (some (.file "a".toList (.file "b".toList .nil)))) := by
  refine c81_order _ c81_root (.file ⟨by decide, by decide⟩ (hasName_not (by decide)) (.file ⟨by decide, by decide⟩ (hasName_not (by decide)) .nil))
    (.file ⟨by decide, by decide⟩ (hasName_not (by decide)) (.file ⟨by decide, by decide⟩ (hasName_not (by decide)) .nil)) (fun p => ?_)
  rw [← mem_names, ← mem_names]
  simp only [names, List.mem_cons, List.not_mem_nil, or_false]
  exact Or.comm

/-- … and those of `c81_no_directory` -/
example : findFilesIn (fun p => (p, none)) (.str "/none".toList) ['*'] = [] := c81_no_directory _ _ _ rfl

/-- … and those of `c81_corpus` and `c81_document_files_partial`: the RST files of maz-3 are found in the subdirectory -/
theorem c81Dirs_ok (l : PccLayer) (d : FsDir) (h : c81Dirs l.directory = some d) : Ok d := by
  unfold c81Dirs at h
  split at h
  · cases h; exact c81Rst_ok
  · cases h

example : ((Pcc.make "/d".toList c81Dirs).layers .rst).Nodup := (c81_corpus c81_root c81Dirs .rst (c81Dirs_ok .rst)).1

theorem c81_example_names (l : PccLayer) (t : FsDir) (p : List (List Char)) (n : List Char) (h1 : c81Dirs l.directory = some t) (h2 : FileAt t (p ++ [n])) (h3 : FitsGlob l.pattern n) :
    (∃ e ext, IsDocId e ∧ '.' ∉ ext ∧ n = e ++ '.' :: ext) ∧ ¬ "maz-3".toList ++ ['.'] <:+: "/d".toList ++ '/' :: (l.directory ++ pathOf [] p) := by
  have hl : l = .rst := by
    cases l <;> first | rfl | (unfold c81Dirs at h1; rw [if_neg (by decide)] at h1; cases h1)
  subst hl
  unfold c81Dirs at h1
  rw [if_pos (show PccLayer.rst.directory = "rst".toList from rfl)] at h1
  cases h1
  rw [← mem_names, show names c81Rst = [["maz-12.rs3".toList], ["old".toList, "maz-3.rs3".toList], ["old".toList, "maz-3.txt".toList], ["README".toList], ["maz-2.rs3".toList]] from rfl] at h2
  have hsplit : ∀ {q : List (List Char)} {m}, p ++ [n] = q ++ [m] → p = q ∧ n = m := fun e => by
    have := List.append_inj' e rfl
    exact ⟨this.1, by simpa using this.2⟩
  rw [← c73_patterns] at h3
  simp only [List.mem_cons, List.not_mem_nil, or_false] at h2
  rcases h2 with h2 | h2 | h2 | h2 | h2
  · obtain ⟨rfl, rfl⟩ := hsplit (q := []) h2
    exact ⟨⟨"maz-12".toList, "rs3".toList, pccId12, by decide, rfl⟩, by decide +kernel⟩
  · obtain ⟨rfl, rfl⟩ := hsplit (q := ["old".toList]) h2
    exact ⟨⟨"maz-3".toList, "rs3".toList, ⟨['3'], by simp, by decide, rfl⟩, by decide, rfl⟩, by decide +kernel⟩
  · obtain ⟨rfl, rfl⟩ := hsplit (q := ["old".toList]) h2
    exact absurd h3 (by decide +kernel)
  · obtain ⟨rfl, rfl⟩ := hsplit (q := []) h2
    exact absurd h3 (by decide +kernel)
  · obtain ⟨rfl, rfl⟩ := hsplit (q := []) h2
    exact ⟨⟨"maz-2".toList, "rs3".toList, pccId2, by decide, rfl⟩, by decide +kernel⟩

example : (PccLayer.rst, "/d/rst/old/maz-3.rs3".toList) ∈ (Pcc.make "/d".toList c81Dirs).docFiles [.connectors, .rst, .syntax, .coreference] "maz-3".toList :=
  (c81_document_files_partial c81_root c81Dirs c81Dirs_ok (by intro l; cases l <;> simp) ⟨['3'], by simp, by decide, rfl⟩ c81_example_names .rst _).2
    ⟨c81Rst, ["old".toList], "rs3".toList, by unfold c81Dirs; rw [if_pos (show PccLayer.rst.directory = "rst".toList from rfl)], by unfold c81Rst; exact .file (.inside .here), (c73_patterns _ _).1 (by decide +kernel), by decide, by decide +kernel⟩

end FsDir
end Dg
