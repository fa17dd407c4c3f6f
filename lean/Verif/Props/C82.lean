import Verif.Spec.MmaxFiles
import Verif.Props.C62

namespace Dg
open Dict

theorem posixJoin_plain {a b : List Char} (hb : b.head? ≠ some '/') (ha : a ≠ []) (hl : a.getLast? ≠ some '/') : posixJoin a b = a ++ '/' :: b := by
  unfold posixJoin
  rw [if_neg hb, if_neg (by rintro (k | k); exacts [ha k, hl k])]

theorem IsRoot.ne {root : List Char} (h : IsRoot root) : root ≠ [] := by rintro rfl; cases h.absolute

theorem getLast?_append_ne {a b : List Char} (hb : b ≠ []) : (a ++ b).getLast? = b.getLast? := by
  rw [List.getLast?_append]
  cases h : b.getLast? with
  | none => exact absurd (List.getLast?_eq_none_iff.1 h) hb
  | some x => rfl

/-- the folder given by an element -/
def mmaxFolder (root : List Char) : Option String → List Char
  | none => root
  | some t => if t = "" then root else t.toList

theorem mmaxPathOf_eq {root : List Char} {f : MmaxFile} {v : String} {e : Option String} (h : f.pathElem v = some e) : mmaxPathOf root f v = .ok (mmaxFolder root e) := by
  unfold mmaxPathOf mmaxFolder
  rw [h]
  cases e <;> rfl

theorem toList_ne {t : String} (h : t ≠ "") : t.toList ≠ [] := fun k => h (String.toList_inj.1 k)

theorem inFolder_join {root : List Char} (hr : IsRoot root) {e : Option String} {n path : List Char} (hn : n.head? ≠ some '/') (h : InFolder root e n path) :
    posixJoin (posixJoin root (mmaxFolder root e)) n = path := by
  have hsame : posixJoin root root = root := by unfold posixJoin; rw [if_pos hr.absolute]
  cases h with
  | none => exact (congrArg (fun x => posixJoin x n) hsame).trans (posixJoin_plain hn hr.ne hr.plain)
  | empty => exact (congrArg (fun x => posixJoin x n) hsame).trans (posixJoin_plain hn hr.ne hr.plain)
  | sub t _ h1 h2 h3 =>
    have e1 : mmaxFolder root (some t) = t.toList := if_neg h1
    have h4 : (root ++ '/' :: t.toList).getLast? = t.toList.getLast? := by
      rw [show root ++ '/' :: t.toList = (root ++ ['/']) ++ t.toList by simp]
      exact getLast?_append_ne (toList_ne h1)
    rw [e1, posixJoin_plain h2 hr.ne hr.plain, posixJoin_plain hn (by simp) (by rw [h4]; exact h3)]
    simp
  | slash t _ h1 h2 h3 =>
    have e1 : mmaxFolder root (some t) = t.toList := if_neg h1
    have h4 : (root ++ '/' :: t.toList).getLast? = t.toList.getLast? := by
      rw [show root ++ '/' :: t.toList = (root ++ ['/']) ++ t.toList by simp]
      exact getLast?_append_ne (toList_ne h1)
    rw [e1, posixJoin_plain h2 hr.ne hr.plain]
    unfold posixJoin
    rw [if_neg hn, if_pos (.inr (h4.trans h3))]
    simp
  | absolute t _ h1 h2 =>
    have h0 : t ≠ "" := by rintro rfl; cases h1
    have e1 : mmaxFolder root (some t) = t.toList := if_neg h0
    have e2 : posixJoin root t.toList = t.toList := by unfold posixJoin; rw [if_pos h1]
    rw [e1, e2, posixJoin_plain hn (toList_ne h0) h2]

theorem mmaxLevels_eq {xs : List (XAttrs × Option String)} {ls : List (String × List Char)} (h : List.Forall₂ IsLevel xs ls) : ∀ d, xs.foldlM mmaxLevelExt d = .ok (upd d ls) := by
  induction h with
  | nil => intro d; rfl
  | @cons x l xs ls h _ ih =>
    intro d
    obtain ⟨t, c, h1, h2⟩ := h.text
    obtain ⟨s1, hs1⟩ := (mem_keys_iff _ _).1 h.schemefile
    obtain ⟨s2, hs2⟩ := (mem_keys_iff _ _).1 h.customization
    have : mmaxLevelExt d x = .ok (put d l.1 l.2) := by
      unfold mmaxLevelExt
      rw [elemAttr_ok hs1, elemAttr_ok hs2, elemAttr_ok h.name]
      simp only [bind, Except.bind, h1, h2, pure, Except.pure, List.tail_cons]
    rw [List.foldlM_cons, this]
    exact ih _
where
  elemAttr_ok {d : XAttrs} {k s : String} (h : find d k = some s) : elemAttr d k = .ok s := by unfold elemAttr; rw [h]

theorem mmaxCommon_eq {fs : MmaxFs} {root : List Char} (hr : IsRoot root) {f : MmaxFile} (hf : fs (root ++ '/' :: "common_paths.xml".toList) = some f) {b m : Option String} {ls : List (String × List Char)}
    (h : IsCommon f b m ls) : mmaxCommon fs root = .ok ⟨mmaxFolder root b, mmaxFolder root m, ls⟩ := by
  unfold mmaxCommon mmaxParse
  rw [posixJoin_plain (by decide) hr.ne hr.plain, hf]
  obtain ⟨e1, h1⟩ := Option.ne_none_iff_exists'.1 (h.others "scheme" (by simp))
  obtain ⟨e2, h2⟩ := Option.ne_none_iff_exists'.1 (h.others "style" (by simp))
  obtain ⟨e3, h3⟩ := Option.ne_none_iff_exists'.1 (h.others "customization" (by simp))
  obtain ⟨e4, h4⟩ := Option.ne_none_iff_exists'.1 h.stylesheet
  have hu : upd [] ls = ls := upd_nil_of_nodup h.names
  simp only [bind, Except.bind, mmaxPathOf_eq h.hasBasedata, mmaxPathOf_eq h.hasMarkable, mmaxPathOf_eq h1, mmaxPathOf_eq h2, mmaxPathOf_eq h3, mmaxLevels_eq h.hasLevels, h4, pure, Except.pure, hu]

theorem posixDir_base {root id : List Char} (hr : IsRoot root) (hi : '/' ∉ id) : posixDir (root ++ '/' :: (id ++ ".mmax".toList)) = root := by
  have h0 : '/' ∉ id ++ ".mmax".toList := by rw [List.mem_append]; rintro (k | k); exacts [hi k, absurd k (by decide)]
  generalize id ++ ".mmax".toList = n at h0
  have h1 : (((root ++ '/' :: n).reverse.dropWhile (fun c => decide (c ≠ '/'))).reverse) = root ++ ['/'] := by
    rw [show root ++ '/' :: n = (root ++ ['/']) ++ n by simp, List.reverse_append, List.dropWhile_append_of_pos]
    · simp
    · intro c hc
      have : c ≠ '/' := by rintro rfl; exact h0 (List.mem_reverse.1 hc)
      simpa using this
  obtain ⟨r, x, rfl⟩ : ∃ r x, root = r ++ [x] := ⟨_, _, (List.dropLast_append_getLast hr.ne).symm⟩
  have hx : x ≠ '/' := by rintro rfl; exact hr.plain (by simp)
  unfold posixDir
  rw [h1, if_neg]
  · simp [hx]
  · intro k
    simp only [List.all_eq_true, List.mem_append, List.mem_singleton, decide_eq_true_eq] at k
    exact hx (k x (by simp))

/-- **C82 (project)**.  The files of an MMAX2 project are found: the words are those of the file given in the base file, in the folder for base data; the levels are those of the common paths file; the markables of a level of the document are those of the file `<ID><extension of the level>` in the folder for markables, if there is such a file. -/
theorem c82_project {fs : MmaxFs} {root id : List Char} {m : Option String} {levels : List (String × List Char)} {words : List MmaxWord} (h : fs.HasProject root id m levels words) {base : String}
    (hb : base.toList = root ++ '/' :: (id ++ ".mmax".toList)) :
    ∃ p, mmaxProject fs base = .ok p ∧ p.base = base ∧ p.words = words ∧ p.levels = levels.map Prod.fst ∧ ∀ (l : String) (ext : List Char) (fid : String) (path : List Char), (l, ext) ∈ levels →
      IsFileName (fid.toList ++ ext) → InFolder root m (fid.toList ++ ext) path → p.file fid l = (fs path).map (·.children) := by
  obtain ⟨bd, f, b, w, wf, wp, h1, h2, h3, h4, h5, h6, h7, h8⟩ := h.files
  have hc := mmaxCommon_eq h.isRoot h1 h2
  have hw : mmaxWordFile root ⟨mmaxFolder root bd, mmaxFolder root m, levels⟩ b = .ok wp := by
    unfold mmaxWordFile
    rw [h4]
    exact congrArg Except.ok (inFolder_join h.isRoot h5.2 h6)
  refine ⟨⟨base, w.words, keys levels, fun fid level => (fs (mmaxLevelFile root ⟨mmaxFolder root bd, mmaxFolder root m, levels⟩ fid level)).map (·.children)⟩, ?_, rfl, h8, rfl, ?_⟩
  · unfold mmaxProject
    rw [hb, posixDir_base h.isRoot h.plainId]
    simp only [bind, Except.bind, hc, mmaxParse, h3, hw, h7, pure, Except.pure]
  · intro l ext fid path hl hn hp
    have hf : find levels l = some ext := mem_find h2.names hl
    show (fs (mmaxLevelFile root _ fid l)).map _ = _
    unfold mmaxLevelFile
    simp only [hf, Option.getD_some]
    rw [inFolder_join h.isRoot hn.2 hp]

/-- **C82 (document)**.  Reading a document from the files of a project gives the graph with the content of the document.  (Partial as C62 is; and of the file system only the parsed files are modelled.) -/
theorem c82_document_partial {fs : MmaxFs} {root id : List Char} {m : Option String} {levels : List (String × List Char)} {doc : MmaxDoc} {ns : String} {precedence connected ignore : Bool}
    (h : fs.HasProject root id m levels (doc.words.map (fun w => ⟨w.1, some w.2⟩))) {base : String} (hb : base.toList = root ++ '/' :: (id ++ ".mmax".toList)) (hd : doc.Ok ns ignore)
    (hl : doc.levels.map Prod.fst = if ignore then (levels.map Prod.fst).filter (· ≠ "sentence") else levels.map Prod.fst)
    (hf : ∀ x ∈ doc.levels, fs.HasLevel root id m levels x.1 x.2) (hs : ignore = true → fs.HasLevel root id m levels "sentence" doc.sents)
    (name : Option String) {order : List String} (ho : order.Perm (doc.levels.map Prod.fst)) (hname : ignore = true → ∀ n, name = some n → n = "" ∨ mmaxFileId n = String.ofList id)
    (h2 : precedence = true → 2 ≤ doc.words.length) : ∃ g, mmaxReadFiles fs name ns precedence connected ignore base order = .ok g ∧ DG.MmaxContent ns precedence connected ignore doc g := by
  obtain ⟨p, e, hbase, hw, hlv, hfile⟩ := c82_project h hb
  have hid : mmaxFileId p.base = String.ofList id := by
    rw [hbase, ← (DG.c62_file_id root id h.plainId).1]
    exact congrArg mmaxFileId (String.toList_inj.1 (hb.trans String.toList_ofList.symm))
  have key : ∀ l ms, fs.HasLevel root id m levels l ms → p.file (mmaxFileId p.base) l = some (ms.map Markable.attrs) := by
    rintro l ms ⟨ext, path, f, k1, k2, k3, k4, k5⟩
    rw [hid, hfile l ext (String.ofList id) path k1 (by rw [String.toList_ofList]; exact k2) (by rw [String.toList_ofList]; exact k3), k4]
    exact congrArg some k5
  have hp : p.Has ignore doc := by
    refine ⟨hw, by rw [hlv]; exact hl, fun x hx => key _ _ (hf x hx), fun hi => ⟨?_, key _ _ (hs hi)⟩⟩
    obtain ⟨ext, _, _, k1, _⟩ := hs hi
    rw [hlv]
    exact List.mem_map.2 ⟨_, k1, rfl⟩
  obtain ⟨g, e2, hc⟩ := DG.c62_content_partial (connected := connected) hd hp name ho (by rw [hid]; exact hname) h2
  refine ⟨g, ?_, hc⟩
  unfold mmaxReadFiles
  rw [e]
  exact e2

/-- **C82 (no common paths)**.  Without the file `common_paths.xml` next to the base file, reading fails with an IOError. -/
theorem c82_no_common_paths {fs : MmaxFs} {root id : List Char} (hr : IsRoot root) (hi : '/' ∉ id) {base : String} (hb : base.toList = root ++ '/' :: (id ++ ".mmax".toList))
    (h : fs (root ++ '/' :: "common_paths.xml".toList) = none) (name : Option String) (ns : String) (precedence connected ignore : Bool) (order : List String) :
    mmaxReadFiles fs name ns precedence connected ignore base order = .error .io := by
  have hc : mmaxCommon fs root = .error .io := by
    unfold mmaxCommon mmaxParse
    rw [posixJoin_plain (by decide) hr.ne hr.plain, h]
    rfl
  unfold mmaxReadFiles mmaxProject
  rw [hb, posixDir_base hr hi]
  simp only [bind, Except.bind, hc]

theorem mmaxPathOf_cases (root : List Char) (f : MmaxFile) (v : String) : (∃ r, mmaxPathOf root f v = .ok r) ∨ mmaxPathOf root f v = .error .attribute := by
  unfold mmaxPathOf
  split
  · exact .inr rfl
  · exact .inl ⟨_, rfl⟩
  · exact .inl ⟨_, rfl⟩

/-- **C82 (missing path)**.  If one of the five path elements is missing in the common paths file, reading fails with an AttributeError: also for the schemes, the style sheets, and the customizations, which are not used. -/
theorem c82_missing_path {fs : MmaxFs} {root id : List Char} (hr : IsRoot root) (hi : '/' ∉ id) {base : String} (hb : base.toList = root ++ '/' :: (id ++ ".mmax".toList)) {f : MmaxFile}
    (h : fs (root ++ '/' :: "common_paths.xml".toList) = some f) {v : String} (hv : v ∈ ["basedata", "scheme", "style", "customization", "markable"]) (hn : f.pathElem v = none)
    (name : Option String) (ns : String) (precedence connected ignore : Bool) (order : List String) : mmaxReadFiles fs name ns precedence connected ignore base order = .error .attribute := by
  have hx : mmaxPathOf root f v = .error .attribute := by unfold mmaxPathOf; rw [hn]
  have hc : mmaxCommon fs root = .error .attribute := by
    unfold mmaxCommon mmaxParse
    rw [posixJoin_plain (by decide) hr.ne hr.plain, h]
    simp only [List.mem_cons, List.not_mem_nil, or_false] at hv
    rcases mmaxPathOf_cases root f "basedata" with ⟨r1, e1⟩ | e1 <;> rcases mmaxPathOf_cases root f "scheme" with ⟨r2, e2⟩ | e2 <;> rcases mmaxPathOf_cases root f "style" with ⟨r3, e3⟩ | e3 <;>
      rcases mmaxPathOf_cases root f "customization" with ⟨r4, e4⟩ | e4 <;> rcases mmaxPathOf_cases root f "markable" with ⟨r5, e5⟩ | e5 <;> simp only [bind, Except.bind, e1, e2, e3, e4, e5]
    rcases hv with rfl | rfl | rfl | rfl | rfl
    · rw [e1] at hx; cases hx
    · rw [e2] at hx; cases hx
    · rw [e3] at hx; cases hx
    · rw [e4] at hx; cases hx
    · rw [e5] at hx; cases hx
  unfold mmaxReadFiles mmaxProject
  rw [hb, posixDir_base hr hi]
  simp only [bind, Except.bind, hc]

/-- **C82 (no file of words)**.  If the base file names no file of words, reading fails with an AttributeError. -/
theorem c82_no_words {fs : MmaxFs} {root id : List Char} (hr : IsRoot root) (hi : '/' ∉ id) {base : String} (hb : base.toList = root ++ '/' :: (id ++ ".mmax".toList)) {f b : MmaxFile} {bd m : Option String} {ls : List (String × List Char)}
    (hf : fs (root ++ '/' :: "common_paths.xml".toList) = some f) (hc : IsCommon f bd m ls) (hfb : fs (root ++ '/' :: (id ++ ".mmax".toList)) = some b) (hw : b.wordsElem = none ∨ b.wordsElem = some none)
    (name : Option String) (ns : String) (precedence connected ignore : Bool) (order : List String) : mmaxReadFiles fs name ns precedence connected ignore base order = .error .attribute := by
  have hx : ∀ c, mmaxWordFile root c b = .error .attribute := by intro c; unfold mmaxWordFile; rcases hw with k | k <;> rw [k]
  unfold mmaxReadFiles mmaxProject
  rw [hb, posixDir_base hr hi]
  simp only [bind, Except.bind, mmaxCommon_eq hr hf hc, mmaxParse, hfb, hx]

/-- **C82 (shared file)**.  Two levels with the same file extension share their markables. -/
theorem c82_same_extension {fs : MmaxFs} {root id : List Char} {m : Option String} {levels : List (String × List Char)} {words : List MmaxWord} (h : fs.HasProject root id m levels words) {base : String}
    (hb : base.toList = root ++ '/' :: (id ++ ".mmax".toList)) {l l' : String} {ext : List Char} (hl : (l, ext) ∈ levels) (hl' : (l', ext) ∈ levels) {fid : String} (hn : IsFileName (fid.toList ++ ext)) {path : List Char}
    (hp : InFolder root m (fid.toList ++ ext) path) : ∃ p, mmaxProject fs base = .ok p ∧ p.file fid l = p.file fid l' := by
  obtain ⟨p, e, _, _, _, hfile⟩ := c82_project h hb
  exact ⟨p, e, (hfile l ext fid path hl hn hp).trans (hfile l' ext fid path hl' hn hp).symm⟩

/-- a file with nothing in it -/
def c82Empty : MmaxFile := ⟨fun _ => none, [], none, none, [], []⟩

/-- the levels of the project: the markables are in the directory `markables`, the words in the directory of the project -/
def c82Levels : List (String × List Char) := [("coref", "_coref.xml".toList), ("chunk", "_chunk.xml".toList), ("sentence", "_sentence.xml".toList)]

/-- the common paths file -/
def c82Common : MmaxFile := { c82Empty with
  pathElem := fun v => if v = "markable" then some (some "markables/") else if v = "basedata" then some none else some (some v)
  levels := c82Levels.map (fun l => ([("name", l.1), ("schemefile", "s.xml"), ("customization_file", "c.xml")], some (String.ofList ('$' :: l.2))))
  stylesheet := some (some "style.xsl") }

/-- the files of the document of C62 -/
def c82Fs : MmaxFs := fun path =>
  if path = "/corpus/common_paths.xml".toList then some c82Common
  else if path = "/corpus/doc.mmax".toList then some { c82Empty with wordsElem := some (some "doc_words.xml") }
  else if path = "/corpus/doc_words.xml".toList then some { c82Empty with words := (DG.c62Doc false).words.map (fun w => ⟨w.1, some w.2⟩) }
  else ((DG.c62Doc false).levels.find? (fun x => path = "/corpus/markables/doc_".toList ++ x.1.toList ++ ".xml".toList)).map (fun x => { c82Empty with children := x.2.map Markable.attrs })

theorem c82Fs_project (ignore : Bool) : c82Fs.HasProject "/corpus".toList "doc".toList (some "markables/") c82Levels ((DG.c62Doc ignore).words.map (fun w => ⟨w.1, some w.2⟩)) := by
  refine ⟨⟨by decide, by decide⟩, by decide, none, c82Common, { c82Empty with wordsElem := some (some "doc_words.xml") }, { c82Empty with words := (DG.c62Doc false).words.map (fun w => ⟨w.1, some w.2⟩) }, "doc_words.xml", _,
    rfl, ⟨rfl, rfl, ?_, ?_, by decide, by decide⟩, rfl, rfl, ⟨by decide, by decide⟩, .none _, rfl, rfl⟩
  · intro v hv
    simp only [List.mem_cons, List.not_mem_nil, or_false] at hv
    rcases hv with rfl | rfl | rfl <;> decide
  · refine .cons ?_ (.cons ?_ (.cons ?_ .nil))
    all_goals exact ⟨rfl, by decide, by decide, _, _, rfl, String.toList_ofList⟩

theorem c82Fs_level {ignore : Bool} {l : String} {ms : List Markable} (h : (l, ms) ∈ (DG.c62Doc ignore).levels ∨ (l, ms) = ("sentence", (DG.c62Doc ignore).sents)) : c82Fs.HasLevel "/corpus".toList "doc".toList (some "markables/") c82Levels l ms := by
  have key : ∀ x ∈ (DG.c62Doc false).levels, c82Fs.HasLevel "/corpus".toList "doc".toList (some "markables/") c82Levels x.1 x.2 := by
    intro x hx
    change x ∈ [_, _, _] at hx
    simp only [List.mem_cons, List.not_mem_nil, or_false] at hx
    rcases hx with rfl | rfl | rfl
    · exact ⟨"_coref.xml".toList, _, { c82Empty with children := _ }, by decide, ⟨by decide, by decide⟩, .slash _ _ (by decide) (by decide) (by decide), rfl, rfl⟩
    · exact ⟨"_chunk.xml".toList, _, { c82Empty with children := _ }, by decide, ⟨by decide, by decide⟩, .slash _ _ (by decide) (by decide) (by decide), rfl, rfl⟩
    · exact ⟨"_sentence.xml".toList, _, { c82Empty with children := _ }, by decide, ⟨by decide, by decide⟩, .slash _ _ (by decide) (by decide) (by decide), rfl, rfl⟩
  apply key (l, ms)
  cases ignore <;> simp_all [DG.c62Doc] <;> tauto

/-- the conditions of c82_document_partial are met -/
example (ignore : Bool) : ∃ g, mmaxReadFiles c82Fs none "mmax" true false ignore "/corpus/doc.mmax" ((DG.c62Doc ignore).levels.map Prod.fst).reverse = .ok g ∧ DG.MmaxContent "mmax" true false ignore (DG.c62Doc ignore) g :=
  c82_document_partial (c82Fs_project ignore) rfl (DG.c62Doc_ok ignore) (by cases ignore <;> decide) (fun _ hx => c82Fs_level (.inl hx)) (fun _ => c82Fs_level (.inr rfl)) none (List.reverse_perm _) (by intro _ n h; cases h) (by intro _; cases ignore <;> decide)

/-- a project with a common paths file that lacks the folder of the style sheets -/
example : ∃ fs f, fs "/corpus/common_paths.xml".toList = some f ∧ f.pathElem "style" = none ∧ mmaxReadFiles fs none "mmax" true false true "/corpus/doc.mmax" [] = .error .attribute :=
  ⟨fun p => if p = "/corpus/common_paths.xml".toList then some { c82Common with pathElem := fun v => if v = "style" then none else some none } else none, _, rfl, rfl,
    c82_missing_path (root := "/corpus".toList) (id := "doc".toList) ⟨by decide, by decide⟩ (by decide) rfl rfl (v := "style") (by decide) rfl _ _ _ _ _ _⟩

/-- a directory without a common paths file -/
example : mmaxReadFiles (fun _ => none) none "mmax" true false true "/corpus/doc.mmax" [] = .error .io :=
  c82_no_common_paths (root := "/corpus".toList) (id := "doc".toList) ⟨by decide, by decide⟩ (by decide) rfl rfl _ _ _ _ _ _

end Dg
