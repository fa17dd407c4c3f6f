import Verif.Props.C40
import Verif.Props.C53

/-! C54: what the CoNLL writer writes can be read by the CoNLL reader. -/

namespace Dg
open Dict
namespace DG

/-- the row as a line of the file -/
def ConllRow.line (r : ConllRow) : ConllLine := .word (decimal r.number :: r.token :: (List.replicate 12 ['_'] ++ [renderCoref r.coref]))

/-- the sentences a reader sees in a written file: the first and the last line are comments -/
def writtenSents : List (List ConllRow) → List (List ConllLine)
  | [] => [[.comment "begin document (__); __".toList, .comment "end document".toList]]
  | rs :: rss => (.comment "begin document (__); __".toList :: rs.map ConllRow.line) :: (rss.map (List.map ConllRow.line) ++ [[.comment "end document".toList]])

theorem joinChars_cons_ne (sep x : List Char) {xs : List (List Char)} (h : xs ≠ []) : joinChars sep (x :: xs) = x ++ sep ++ joinChars sep xs := by
  cases xs with
  | nil => exact absurd rfl h
  | cons y ys => rfl

theorem row_text (r : ConllRow) : r.render = r.line.text ++ ['\n'] := by
  simp [ConllRow.render, ConllRow.line, ConllLine.text, joinChars, List.replicate]

theorem rows_text : ∀ {rs : List ConllRow}, rs ≠ [] → rs.flatMap ConllRow.render = conllSentText (rs.map ConllRow.line) ++ ['\n']
  | [], h => absurd rfl h
  | [r], _ => by simp [conllSentText, joinChars, row_text]
  | r :: r' :: rs, _ => by
    have ih := rows_text (rs := r' :: rs) (by simp)
    rw [List.flatMap_cons, ih, row_text]
    simp [conllSentText, joinChars]

theorem sents_text : ∀ {rss : List (List ConllRow)}, (∀ rs ∈ rss, rs ≠ []) →
    rss.flatMap (fun rs : List ConllRow => rs.flatMap ConllRow.render ++ ['\n']) ++ "#end document".toList = joinChars ['\n', '\n'] ((rss.map (List.map ConllRow.line) ++ [[ConllLine.comment "end document".toList]]).map conllSentText)
  | [], _ => by simp [conllSentText, joinChars, ConllLine.text]
  | rs :: rss, h => by
    have ih := sents_text (rss := rss) (fun x hx => h x (List.mem_cons_of_mem _ hx))
    rw [List.flatMap_cons, rows_text (h rs (by simp)), List.append_assoc, ih]
    rw [List.map_cons, List.cons_append, List.map_cons, joinChars_cons_ne _ _ (by simp)]
    simp

theorem written_text {rss : List (List ConllRow)} (h : ∀ rs ∈ rss, rs ≠ []) :
    "#begin document (__); __\n".toList ++ rss.flatMap (fun rs : List ConllRow => rs.flatMap ConllRow.render ++ ['\n']) ++ "#end document".toList = joinChars ['\n', '\n'] ((writtenSents rss).map conllSentText) := by
  have e1 : "#begin document (__); __\n".toList = '#' :: "begin document (__); __".toList ++ ['\n'] := by decide
  cases rss with
  | nil => rfl
  | cons rs rss =>
    have ih := sents_text (rss := rss) (fun x hx => h x (List.mem_cons_of_mem _ hx))
    have h1 := h rs (by simp)
    rw [List.flatMap_cons, List.append_assoc, List.append_assoc, ih, rows_text h1, writtenSents, List.map_cons, joinChars_cons_ne _ _ (by simp)]
    have e2 : conllSentText (.comment "begin document (__); __".toList :: rs.map ConllRow.line) = '#' :: "begin document (__); __".toList ++ ['\n'] ++ conllSentText (rs.map ConllRow.line) := by
      unfold conllSentText
      rw [List.map_cons, joinChars_cons_ne _ _ (by simpa using h1)]
      rfl
    rw [e1, e2]
    simp

theorem renderCoref_chars (o : Option (List ConllEntry)) : ∀ c ∈ renderCoref o, isDigitChar c = true ∨ c = '(' ∨ c = ')' ∨ c = '_' ∨ c = '|' := by
  intro c hc
  cases o with
  | none => simp [renderCoref] at hc; exact .inr (.inr (.inr (.inl hc)))
  | some es =>
    rcases joinChars_mem hc with h | ⟨x, hx, h⟩
    · rw [List.mem_singleton] at h
      exact .inr (.inr (.inr (.inr h)))
    · obtain ⟨e, _, rfl⟩ := List.mem_map.1 hx
      unfold ConllEntry.render at h
      simp only [List.mem_append] at h
      rcases h with (h | h) | h
      · split at h
        · rw [List.mem_singleton] at h; exact .inr (.inl h)
        · cases h
      · exact .inl (decimal_digits _ _ h)
      · split at h
        · rw [List.mem_singleton] at h; exact .inr (.inr (.inl h))
        · cases h

theorem line_ok {r : ConllRow} (h : '\t' ∉ r.token ∧ '\n' ∉ r.token) : r.line.Ok false := by
  refine ⟨?_, by simp⟩
  intro f hf
  simp only [List.mem_cons, List.mem_append, List.not_mem_nil, or_false] at hf
  rcases hf with rfl | rfl | hf | rfl
  · refine ⟨fun h => absurd (decimal_digits _ _ h) (by decide), fun h => absurd (decimal_digits _ _ h) (by decide)⟩
  · exact h
  · rw [List.mem_replicate] at hf
    rw [hf.2]
    decide
  · refine ⟨fun h => ?_, fun h => ?_⟩
    · rcases renderCoref_chars _ _ h with h | h | h | h | h <;> revert h <;> decide
    · rcases renderCoref_chars _ _ h with h | h | h | h | h <;> revert h <;> decide

/-- the words of the sentences of a written file -/
theorem conllWords_rows (cols : List String) : ∀ rs : List ConllRow, conllWords cols (rs.map ConllRow.line) = rs.map (fun r => cols.zip (decimal r.number :: r.token :: (List.replicate 12 ['_'] ++ [renderCoref r.coref])))
  | [] => rfl
  | r :: rs => by
    rw [List.map_cons, List.map_cons, ← conllWords_rows cols rs]
    rfl

theorem writtenSents_words (cols : List String) (rss : List (List ConllRow)) :
    (writtenSents rss).map (conllWords cols) = (rss ++ [[]]).map (fun rs : List ConllRow => rs.map (fun r : ConllRow => cols.zip (decimal r.number :: r.token :: (List.replicate 12 ['_'] ++ [renderCoref r.coref])))) := by
  cases rss with
  | nil => rfl
  | cons rs rss =>
    simp only [writtenSents, List.map_cons, List.map_append, List.cons_append, List.map_map]
    congr 1
    · exact conllWords_rows cols rs
    · congr 1
      refine List.map_congr_left ?_
      intro x _
      exact conllWords_rows cols x

theorem writtenSents_file {rss : List (List ConllRow)} (hne : ∀ rs ∈ rss, rs ≠ []) (hn : ∀ rs ∈ rss, ∀ r ∈ rs, '\t' ∉ r.token ∧ '\n' ∉ r.token) :
    ConllFile false (writtenSents rss) ("#begin document (__); __\n".toList ++ rss.flatMap (fun rs : List ConllRow => rs.flatMap ConllRow.render ++ ['\n']) ++ "#end document".toList) := by
  refine ⟨by cases rss <;> simp [writtenSents], ?_, [], [], _, (by rw [List.nil_append, List.append_nil]), written_text hne, by simp, ⟨'#', ?_, by decide⟩, ⟨'t', ?_, by decide⟩⟩
  · have hrow : ∀ rs ∈ rss, ∀ l ∈ rs.map ConllRow.line, l.Ok false := by
      intro rs hrs l hl
      obtain ⟨r, hr, rfl⟩ := List.mem_map.1 hl
      exact line_ok (hn rs hrs r hr)
    have hb : (ConllLine.comment "begin document (__); __".toList).Ok false := by show '\n' ∉ _; decide
    have he : (ConllLine.comment "end document".toList).Ok false := by show '\n' ∉ _; decide
    cases rss with
    | nil =>
      intro ls hls
      rw [writtenSents, List.mem_singleton] at hls
      subst hls
      refine ⟨by simp, ?_⟩
      intro l hl
      rcases List.mem_cons.1 hl with rfl | hl
      · exact hb
      · rw [List.mem_singleton] at hl; subst hl; exact he
    | cons rs rss =>
      intro ls hls
      rw [writtenSents, List.mem_cons, List.mem_append, List.mem_singleton] at hls
      rcases hls with rfl | hls | rfl
      · refine ⟨by simp, ?_⟩
        intro l hl
        rcases List.mem_cons.1 hl with rfl | hl
        · exact hb
        · exact hrow rs (by simp) l hl
      · obtain ⟨x, hx, rfl⟩ := List.mem_map.1 hls
        exact ⟨by simpa using hne x (List.mem_cons_of_mem _ hx), hrow x (List.mem_cons_of_mem _ hx)⟩
      · refine ⟨by simp, ?_⟩
        intro l hl
        rw [List.mem_singleton] at hl; subst hl; exact he
  · rfl
  · rw [List.getLast?_append]
    rfl

/-- the rows of a sentence are numbered from 1 and have the token strings -/
theorem rowsFrom_of_ok {g : DG} {st : ConllMaps} : ∀ {ts : List (NodeId × String)} {i : Nat} {rs : List ConllRow}, (∀ p ∈ ts, g.TokenStr p.1 p.2) → g.conllRowsFrom st i (ts.map Prod.fst) = .ok rs →
    rs.map ConllRow.number = List.range' i ts.length ∧ rs.map ConllRow.token = ts.map (fun p => p.2.toList)
  | [], i, rs, _, h => by
    injection h with h
    subst h
    exact ⟨rfl, rfl⟩
  | t :: ts, i, rs, ht, h => by
    rw [List.map_cons] at h
    change (g.conllRow st i t.1 >>= fun r => g.conllRowsFrom st (i + 1) (ts.map Prod.fst) >>= fun rs => .ok (r :: rs)) = .ok rs at h
    cases h1 : g.conllRow st i t.1 with
    | error e => rw [h1] at h; cases h
    | ok r =>
      rw [h1] at h
      change (g.conllRowsFrom st (i + 1) (ts.map Prod.fst) >>= fun rs => .ok (r :: rs)) = .ok rs at h
      cases h2 : g.conllRowsFrom st (i + 1) (ts.map Prod.fst) with
      | error e => rw [h2] at h; cases h
      | ok rs' =>
        rw [h2] at h
        injection h with h
        subst h
        obtain ⟨e1, e2⟩ := rowsFrom_of_ok (fun p hp => ht p (List.mem_cons_of_mem _ hp)) h2
        have hr : r.number = i ∧ r.token = t.2.toList := by
          unfold conllRow at h1
          cases h3 : conllCoref st t.1 with
          | error e => rw [h3] at h1; cases h1
          | ok c =>
            rw [h3] at h1
            have h4 : g.getToken t.1 = .ok (.atom (.str t.2)) := getAttr_ok.2 (ht t (by simp))
            change (g.getToken t.1 >>= fun v => fmtVal v >>= fun s => .ok ⟨i, s, c⟩) = .ok r at h1
            rw [h4] at h1
            injection h1 with h1
            subst h1
            exact ⟨rfl, rfl⟩
        rw [List.map_cons, List.map_cons, List.map_cons, e1, e2, hr.1, hr.2]
        exact ⟨rfl, rfl⟩

theorem rows_of_ok {g : DG} {fuel : Nat} {layer ml : Option String} {out : List Char} (h : conllStr fuel g layer ml = .ok out) {ss : List (List (NodeId × String))}
    (hss : List.Forall₂ (fun s ts => g.SentenceTokens s (ts.map Prod.fst) ∧ ∀ p ∈ ts, g.TokenStr p.1 p.2) g.sentences ss) :
    ∃ rss, List.Forall₂ (fun (ts : List (NodeId × String)) (rs : List ConllRow) => rs.map ConllRow.number = List.range' 1 ts.length ∧ rs.map ConllRow.token = ts.map (fun p => p.2.toList)) ss rss ∧
      out = "#begin document (__); __\n".toList ++ rss.flatMap (fun rs : List ConllRow => rs.flatMap ConllRow.render ++ ['\n']) ++ "#end document".toList := by
  unfold conllStr at h
  cases h1 : conllRows fuel g layer ml with
  | error e => rw [h1] at h; cases h
  | ok rss =>
    rw [h1] at h
    injection h with h
    refine ⟨rss, ?_, h.symm⟩
    unfold conllRows at h1
    cases h2 : conllMaps fuel g layer (ml.getD (qual g.ns "markable")) with
    | error e => rw [h2] at h1; cases h1
    | ok st =>
      rw [h2] at h1
      change mapE (g.conllSentence st) g.sentences = .ok rss at h1
      rw [mapE_ok] at h1
      clear h2 h
      generalize g.sentences = sents at h1 hss
      induction hss generalizing rss with
      | nil => cases h1; exact .nil
      | cons h3 _ ih =>
        cases h1 with
        | cons h4 h5 =>
          refine .cons ?_ (ih _ h5)
          unfold conllSentence at h4
          rw [sentenceTokens_ok h3.1] at h4
          exact rowsFrom_of_ok h3.2 h4

theorem zip_find_underscore {cols : List String} (hc : cols = conll2009Columns) {a b rest : List Char} {c : String} (hm : c ∈ cols) (h1 : c ≠ "word_id") (h2 : c ≠ "token") :
    find (cols.zip (a :: b :: (List.replicate 12 ['_'] ++ [rest]))) c = some ['_'] := by
  subst hc
  simp only [conll2009Columns, List.mem_cons, List.not_mem_nil, or_false] at hm
  rcases hm with rfl | rfl | rfl | rfl | rfl | rfl | rfl | rfl | rfl | rfl | rfl | rfl | rfl | rfl
  · exact absurd rfl h1
  · exact absurd rfl h2
  all_goals rfl

theorem no_feature_underscore {f : String} {v : Val} : ¬ FeatureIs ['_'] f v := by
  rintro ⟨pre, p, post, e, hq, h, _⟩
  have hp : p = ['_'] := by
    have h1 := splitChars_join '|' (pre ++ p :: post) (by simp) hq
    rw [← e] at h1
    have h2 : p ∈ splitChars '|' ['_'] := by rw [h1]; simp
    simpa [splitChars] using h2
  subst hp
  unfold PieceSays at h
  rw [if_neg (by decide)] at h
  cases h with
  | person hn hd =>
    have := decimal_digits _ '_' (by rw [← hd]; simp)
    revert this
    decide
  | other hm hv =>
    simp only [List.mem_cons, List.not_mem_nil, or_false, Prod.mk.injEq] at hm
    rcases hm with ⟨-, rfl⟩ | ⟨-, rfl⟩ | ⟨-, rfl⟩ | ⟨-, rfl⟩ | ⟨-, rfl⟩ | ⟨-, rfl⟩ | ⟨-, rfl⟩ <;> revert hv <;> decide

/-- **C54** (tokens and sentences survive).  Whatever document is written as a CoNLL file: if none of its sentences is empty and no token contains a tab or a line break, the file can be read as a CoNLL 2009 file, with the features in
any column but the first two.  What is read has the sentences of the document in order, with the same token strings in the same order, and (partial: this is not in the document) one more sentence without tokens. -/
theorem c54_roundtrip_partial (g : DG) (fuel : Nat) (layer markableLayer : Option String) (out : List Char) (hw : conllStr fuel g layer markableLayer = .ok out) (ss : List (List (NodeId × String)))
    (hss : List.Forall₂ (fun s ts => g.SentenceTokens s (ts.map Prod.fst) ∧ ∀ p ∈ ts, g.TokenStr p.1 p.2) g.sentences ss) (hne : ∀ ts ∈ ss, ts ≠ [])
    (hchars : ∀ ts ∈ ss, ∀ p ∈ ts, '\t' ∉ p.2.toList ∧ '\n' ∉ p.2.toList) (cfg : ConllCfg) (name : String) (hcfg : cfg.new = false)
    (hcols : cfg.headAttr ∈ conll2009Columns ∧ cfg.deprelAttr ∈ conll2009Columns ∧ cfg.featAttr ∈ conll2009Columns) (hfeat : cfg.featAttr ≠ "word_id" ∧ cfg.featAttr ≠ "token") :
    ∃ g', conllRead cfg name out = .ok g' ∧ Inv g' ∧ g'.HasTokens (ss.flatten.map Prod.snd) ∧ g'.sentences.length = g.sentences.length + 1 ∧
      ∃ tss, g'.tokens = tss.flatten ∧ List.Forall₂ g'.SentenceTokens g'.sentences (tss ++ [[]]) ∧ List.Forall₂ (fun ts ts' => List.Forall₂ (fun (p : NodeId × String) t' => g'.TokenStr t' p.2) ts ts') ss tss := by
  obtain ⟨rss, hrss, rfl⟩ := rows_of_ok hw hss
  have hrows : ∀ rs ∈ rss, ∃ ts ∈ ss, rs.map ConllRow.number = List.range' 1 ts.length ∧ rs.map ConllRow.token = ts.map (fun p => p.2.toList) := by
    intro rs hrs
    obtain ⟨ts, h1, h2⟩ := forall₂_mem_right hrss hrs
    exact ⟨ts, h1, h2⟩
  have hrne : ∀ rs ∈ rss, rs ≠ [] := by
    intro rs hrs e
    obtain ⟨ts, h1, h2, h3⟩ := hrows rs hrs
    subst e
    have := congrArg List.length h3
    simp at this
    exact hne ts h1 (List.length_eq_zero_iff.1 this.symm)
  have hrch : ∀ rs ∈ rss, ∀ r ∈ rs, '\t' ∉ r.token ∧ '\n' ∉ r.token := by
    intro rs hrs r hr
    obtain ⟨ts, h1, h2, h3⟩ := hrows rs hrs
    have : r.token ∈ ts.map (fun p => p.2.toList) := by rw [← h3]; exact List.mem_map_of_mem hr
    obtain ⟨p, hp, e⟩ := List.mem_map.1 this
    rw [← e]
    exact hchars ts h1 p hp
  have hcc : cfg.columns = conll2009Columns := by unfold ConllCfg.columns; rw [hcfg]; rfl
  have hfile := writtenSents_file hrne hrch
  rw [← hcfg] at hfile
  have hwords : ∀ ls ∈ writtenSents rss, ∃ rs ∈ rss ++ [[]], conllWords cfg.columns ls = rs.map (fun r => cfg.columns.zip (decimal r.number :: r.token :: (List.replicate 12 ['_'] ++ [renderCoref r.coref]))) := by
    intro ls hls
    have : conllWords cfg.columns ls ∈ (writtenSents rss).map (conllWords cfg.columns) := List.mem_map_of_mem hls
    rw [writtenSents_words] at this
    obtain ⟨rs, h1, h2⟩ := List.mem_map.1 this
    exact ⟨rs, h1, h2.symm⟩
  have hid : ∀ (a b : List Char) (xs : List (List Char)), find (cfg.columns.zip (a :: b :: xs)) "word_id" = some a := by
    intro a b xs; rw [hcc]; rfl
  have htok : ∀ (a b : List Char) (xs : List (List Char)), find (cfg.columns.zip (a :: b :: xs)) "token" = some b := by
    intro a b xs; rw [hcc]; rfl
  obtain ⟨g', xss, e1, hinv, -, hns, hx, hg⟩ := c53_read cfg name (by rw [hcc]; exact hcols) hfile
    (by
      intro ls hls w hw
      obtain ⟨rs, _, e⟩ := hwords ls hls
      rw [e] at hw
      obtain ⟨r, _, rfl⟩ := List.mem_map.1 hw
      exact ⟨_, _, hid _ _ _, pyInt_decimal _⟩)
    (by
      intro ls hls
      obtain ⟨rs, hrs, e⟩ := hwords ls hls
      rw [e, List.map_map]
      have e2 : rs.map ((fun w => find w "word_id") ∘ fun r => cfg.columns.zip (decimal r.number :: r.token :: (List.replicate 12 ['_'] ++ [renderCoref r.coref]))) = (rs.map ConllRow.number).map (fun n => some (decimal n)) := by
        rw [List.map_map]
        refine List.map_congr_left ?_
        intro r _
        exact hid _ _ _
      rw [e2]
      have h3 : (rs.map ConllRow.number).Nodup := by
        rw [List.mem_append, List.mem_singleton] at hrs
        rcases hrs with hrs | rfl
        · obtain ⟨ts, _, h2, _⟩ := hrows rs hrs
          rw [h2]
          exact List.nodup_range'
        · exact .nil
      refine List.Nodup.map ?_ h3
      intro a b hab
      exact decimal_injective (Option.some.inj hab))
  -- the words that are read, sentence by sentence
  have hx' : List.Forall₂ (fun rs xs => List.Forall₂ (fun (r : ConllRow) (x : CoWord) => x.id = decimal r.number ∧ find x.attrs (qual cfg.ns "token") = some (.atom (.str (String.ofList r.token)))) rs xs) (rss ++ [[]]) xss := by
    have h1 : List.Forall₂ (List.Forall₂ (WordIs cfg)) ((writtenSents rss).map (conllWords cfg.columns)) xss := by rw [List.forall₂_map_left_iff]; exact hx
    rw [writtenSents_words, List.forall₂_map_left_iff] at h1
    refine h1.imp ?_
    intro rs xs h
    rw [List.forall₂_map_left_iff] at h
    refine h.imp ?_
    intro r x h
    obtain ⟨h1, _, _, _, fs, h2, h3, _⟩ := h
    rw [hid] at h1
    injection h1 with h1
    rw [zip_find_underscore hcc (hcc ▸ hcols.2.2) hfeat.1 hfeat.2] at h2
    injection h2 with h2
    subst h2
    exact ⟨h1.symm, h3.token _ (htok _ _ _) (fun v hv => no_feature_underscore hv)⟩
  obtain ⟨xss1, xss2, h1, h2, rfl⟩ := forall₂_append_split hx'
  have h2' : xss2 = [[]] := by
    cases h2 with
    | cons h3 h4 => cases h3; cases h4; rfl
  subst h2'
  have hlen1 : xss1.length = rss.length := h1.length_eq.symm
  have hlen2 : rss.length = ss.length := hrss.length_eq.symm
  let tss : List (List NodeId) := (xss1.zipIdx 1).map (fun p => p.1.map (fun x => wordNode p.2 x.id))
  have htl : tss.length = ss.length := by simp [tss, hlen1, hlen2]
  have hstr : List.Forall₂ (fun ts ts' => List.Forall₂ (fun (p : NodeId × String) t' => g'.TokenStr t' p.2) ts ts') ss tss := by
    rw [List.forall₂_iff_get]
    refine ⟨htl.symm, ?_⟩
    intro k hk1 hk2
    have hk3 : k < rss.length := by omega
    have hk4 : k < xss1.length := by omega
    have a1 := List.Forall₂.get hrss hk1 hk3
    have a2 := List.Forall₂.get h1 hk3 hk4
    have e3 : tss.get ⟨k, hk2⟩ = (xss1[k]).map (fun x => wordNode (k + 1) x.id) := by
      simp [tss, Nat.add_comm]
    rw [e3]
    simp only [List.get_eq_getElem] at a1 a2 ⊢
    have hxk : (xss1 ++ [[]])[k]? = some xss1[k] := by rw [List.getElem?_append_left hk4, List.getElem?_eq_getElem hk4]
    have hlen : (ss[k]).length = (xss1[k]).length := by
      have b1 := congrArg List.length a1.2
      have b2 := a2.length_eq
      simp only [List.length_map] at b1
      omega
    rw [List.forall₂_map_right_iff, List.forall₂_iff_get]
    refine ⟨hlen, ?_⟩
    intro j hj1 hj2
    have hj3 : j < (rss[k]).length := by rw [a2.length_eq]; exact hj2
    obtain ⟨_, b2⟩ := List.Forall₂.get a2 hj3 hj2
    have b3 : (rss[k])[j].token = (ss[k])[j].2.toList := by
      have := congrArg (fun l => l[j]?) a1.2
      simpa [List.getElem?_map, List.getElem?_eq_getElem hj3, List.getElem?_eq_getElem hj1] using this
    simp only [List.get_eq_getElem] at b2 ⊢
    have b4 := (hg.word k _ _ hxk (List.getElem_mem hj2)).1 (qual cfg.ns "token") (by
      intro e
      have := congrArg String.toList e
      have h4 : ':' ∈ ("layers" : String).toList := by rw [← this]; simp [qual]
      revert h4
      decide)
    unfold TokenStr
    rw [hns]
    refine (show g'.nodeAttr _ (qual cfg.ns "token") = _ from b4).trans ?_
    rw [find_put_ne, b2, b3, String.ofList_toList]
    intro e
    have := congrArg String.toList e
    have h4 : ':' ∈ ("sent_pos" : String).toList := by rw [this]; simp [qual]
    revert h4
    decide
  have htokens : g'.tokens = tss.flatten := by
    rw [hg.tokens, List.zipIdx_append, List.flatMap_append]
    simp only [List.zipIdx_cons, List.zipIdx_nil, List.flatMap_cons, List.flatMap_nil, List.map_nil, List.append_nil]
    rw [List.flatMap_def]
  refine ⟨g', e1, hinv, ?_, ?_, tss, htokens, ?_, hstr⟩
  · unfold HasTokens
    rw [htokens, List.forall₂_map_right_iff]
    clear_value tss
    clear htl htokens
    have : List.Forall₂ (fun (a : NodeId) (c : NodeId × String) => g'.TokenStr a c.2) tss.flatten ss.flatten := by
      clear hne hchars hss hrss hrows hlen2
      induction hstr with
      | nil => exact .nil
      | cons h3 _ ih => exact List.rel_append (R := fun (a : NodeId) (c : NodeId × String) => g'.TokenStr a c.2) h3.flip ih
    exact this
  · rw [hg.sentences, List.length_map, List.length_range', List.length_append, hlen1, hlen2, hss.length_eq]
    rfl
  · rw [hg.sentences, List.forall₂_map_left_iff, List.forall₂_iff_get]
    refine ⟨by simp [tss], ?_⟩
    intro k hk1 hk2
    simp only [List.get_eq_getElem, List.getElem_range']
    have hk5 : k < xss1.length + 1 := by simpa using hk1
    have e5 : 1 + 1 * k = k + 1 := by omega
    rw [e5]
    have hsent : ∀ xs, (xss1 ++ [[]])[k]? = some xs → g'.SentenceTokens (sentNode (k + 1)) (xs.map (fun x => wordNode (k + 1) x.id)) := by
      intro xs hxs
      have := (hg.sentence k xs hxs).1 "tokens" (by decide)
      unfold SentenceTokens
      rw [this]
      simp [find]
    by_cases hk : k < xss1.length
    · have hxs := hsent (xss1[k]) (by rw [List.getElem?_append_left hk, List.getElem?_eq_getElem hk])
      have e6 : (tss ++ [[]])[k] = (xss1[k]).map (fun x => wordNode (k + 1) x.id) := by
        rw [List.getElem_append_left (by simpa [tss] using hk)]
        simp [tss, Nat.add_comm]
      rw [e6]
      exact hxs
    · have hk' : k = xss1.length := by omega
      have hxs := hsent [] (by rw [hk', List.getElem?_append_right (Nat.le_refl _)]; simp)
      have e6 : (tss ++ [[]])[k] = [] := by
        rw [List.getElem_append_right (by simp [tss]; omega)]
        simp
      rw [e6]
      exact hxs

/-! ### examples and failures -/

/-- two sentences, with tokens of the given strings -/
def sampleConll2 (a b : List String) : DG :=
  (DG.init "" "doc" none).run (
    a.zipIdx.map (fun p => .addNode (.int (p.2 : Nat)) (.atom .none) .none [("doc:token", .atom (.str p.1))]) ++
    b.zipIdx.map (fun p => .addNode (.int ((p.2 + a.length : Nat))) (.atom .none) .none [("doc:token", .atom (.str p.1))]) ++
    [.addNode (.str "s1") (.atom .none) .none [("tokens", .list ((List.range a.length).map (fun i => .int (i : Nat))))],
     .addNode (.str "s2") (.atom .none) .none [("tokens", .list ((List.range b.length).map (fun i => .int ((i + a.length : Nat)))))], .setSentences [.str "s1", .str "s2"]])

/-- the hypotheses of `c54_roundtrip_partial` can be met -/
example : let g := sampleConll2 ["Die", "Sonne", "#"] ["Ja"]
    (conllStr 20 g none none).isOk = true ∧
    List.Forall₂ (fun s (ts : List (NodeId × String)) => g.SentenceTokens s (ts.map Prod.fst) ∧ ∀ p ∈ ts, g.TokenStr p.1 p.2) g.sentences [[(.int 0, "Die"), (.int 1, "Sonne"), (.int 2, "#")], [(.int 3, "Ja")]] := by
  refine ⟨by decide +kernel, ?_⟩
  refine .cons ⟨by unfold SentenceTokens; decide, ?_⟩ (.cons ⟨by unfold SentenceTokens; decide, ?_⟩ .nil)
  · unfold TokenStr; decide
  · unfold TokenStr; decide

/-- write and read -/
def conllAgain (g : DG) : Except PyErr DG := do
  let out ← conllStr 20 g none none
  conllRead sampleCfg "f" out

/-- **C54** fails: a document of two sentences is read back as one of three: the last line of the file counts as a sentence -/
theorem c54_fails_extra_sentence : ((conllAgain (sampleConll2 ["Die", "Sonne"] ["Ja"])).map (fun g => (g.sentences, g.tokens))) =
    .ok ([.str "s1", .str "s2", .str "s3"], [.str "s1_t1", .str "s1_t2", .str "s2_t1"]) := by decide +kernel

/-- **C54** fails: a file with an empty sentence can be written, but not read -/
theorem c54_fails_empty_sentence : (conllStr 20 (sampleConll2 ["Die", "Sonne"] []) none none).isOk = true ∧ conllAgain (sampleConll2 ["Die", "Sonne"] []) = .error .type := by decide +kernel

/-- **C54** fails: a line break in a token is not escaped; the file cannot be read -/
theorem c54_fails_line_break : conllAgain (sampleConll2 ["Die\nSonne"] ["Ja"]) = .error .type := by decide +kernel

/-- **C54** fails: a tab in a token moves the rest of the token into the next column: the token is shortened -/
theorem c54_fails_tab : (conllAgain (sampleConll2 ["Die\tSonne"] ["Ja"])).map (fun g => g.nodeAttr (.str "s1_t1") "conll:token") = .ok (some (.atom (.str "Die"))) := by decide +kernel

end DG
end Dg
