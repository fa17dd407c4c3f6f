import Verif.Model.Rs3
import Verif.Spec.Rs3
import Verif.Lemmas.Rst
import Verif.Lemmas.Chains
import Verif.Lemmas.Forall2
import Verif.Lemmas.Dict

/-! What `get_rs3_data` extracts from an .rs3 file. -/

namespace Dg
open Rs3Data DG

/-- the entry of an element in elem_dict -/
def entryOf (reltypes : Dict (List Char) (List Char)) (x : Rs3Xml) : Except PyErr Rs3Elem := do
  let (reltype, nuclearity) ← relationOf reltypes x.relname
  match x.kind with
  | .segment none => .error .attribute
  | .segment (some text) => return ⟨x.parent, x.relname, reltype, nuclearity, .inl (normalizeEduString text)⟩
  | .group type => return ⟨x.parent, x.relname, reltype, nuclearity, .inr type⟩

/-- is this a segment? -/
def Rs3Xml.isSeg (x : Rs3Xml) : Bool := match x.kind with | .segment _ => true | .group _ => false

theorem readElem_eq (reltypes : Dict (List Char) (List Char)) (d : Rs3Data) (x : Rs3Xml) :
    readElem reltypes d x = (do
      let e ← entryOf reltypes x
      return { children := Dict.put d.children x.parent ((Dict.find d.children x.parent).getD [] ++ [x.id]), elems := Dict.put d.elems x.id e,
               edus := if x.isSeg then d.edus ++ [x.id] else d.edus }) := by
  unfold readElem entryOf Rs3Xml.isSeg
  cases relationOf reltypes x.relname with
  | error e => rfl
  | ok r =>
    obtain ⟨id, parent, relname, kind⟩ := x
    cases kind with
    | segment t => cases t <;> rfl
    | group t => rfl

/-- what has been read from a list of elements -/
structure ReadFrom (reltypes : Dict (List Char) (List Char)) (xs : List Rs3Xml) (d : Rs3Data) : Prop where
  edus : d.edus = (xs.filter Rs3Xml.isSeg).map Rs3Xml.id
  kids : ∀ i, d.kids i = (xs.filter (fun x => decide (x.parent = i))).map Rs3Xml.id
  has : ∀ i, Dict.has d.children i = true ↔ ∃ x ∈ xs, x.parent = i
  keys : d.elems.map Prod.fst = xs.map Rs3Xml.id
  find : ∀ x ∈ xs, ∃ e, entryOf reltypes x = .ok e ∧ Dict.find d.elems x.id = some e

theorem readFrom_fold {reltypes : Dict (List Char) (List Char)} (ys : List Rs3Xml) : ∀ (xs : List Rs3Xml) (d d' : Rs3Data),
    ReadFrom reltypes xs d → ((xs ++ ys).map Rs3Xml.id).Nodup → ys.foldlM (readElem reltypes) d = .ok d' → ReadFrom reltypes (xs ++ ys) d' := by
  induction ys with
  | nil =>
    intro xs d d' h hnd hf
    cases hf
    simpa using h
  | cons y ys ih =>
    intro xs d d' h hnd hf
    rw [List.foldlM_cons, readElem_eq] at hf
    cases he : entryOf reltypes y with
    | error e => rw [he] at hf; cases hf
    | ok e =>
      rw [he] at hf
      have hstep : ReadFrom reltypes (xs ++ [y])
          ⟨Dict.put d.children y.parent ((Dict.find d.children y.parent).getD [] ++ [y.id]), Dict.put d.elems y.id e, if y.isSeg then d.edus ++ [y.id] else d.edus⟩ := by
        have hy : y.id ∉ xs.map Rs3Xml.id := by
          rw [List.map_append, List.map_cons, List.nodup_append] at hnd
          intro hm
          exact hnd.2.2 _ hm _ (List.mem_cons_self) rfl
        refine ⟨?_, ?_, ?_, ?_, ?_⟩
        · rw [List.filter_append, List.map_append, ← h.edus]
          by_cases hs : y.isSeg = true <;> simp [hs]
        · intro i
          rw [List.filter_append, List.map_append, ← h.kids i]
          show (Dict.find (Dict.put d.children y.parent _) i).getD [] = _
          rw [Dict.find_put]
          unfold Rs3Data.kids
          by_cases hi : y.parent = i
          · subst hi; simp
          · simp [hi]
        · intro i
          rw [Dict.has_iff]
          show i ∈ Dict.keys (Dict.put d.children y.parent _) ↔ _
          rw [Dict.mem_keys_iff]
          show (∃ v, Dict.find (Dict.put d.children y.parent _) i = some v) ↔ _
          rw [Dict.find_put]
          have hh := h.has i
          by_cases hi : y.parent = i
          · simp [hi]
          · rw [if_neg hi]
            rw [Dict.has_iff, Dict.mem_keys_iff] at hh
            rw [hh]
            simp [hi]
        · rw [List.map_append, ← h.keys]
          have hput := Dict.put_of_not_mem d.elems y.id e (by rw [← h.keys] at hy; exact hy)
          show (Dict.put d.elems y.id e).map Prod.fst = _
          rw [hput]
          simp
        · intro x hx
          rcases List.mem_append.1 hx with hx | hx
          · obtain ⟨e', he', hf'⟩ := h.find x hx
            refine ⟨e', he', ?_⟩
            show Dict.find (Dict.put d.elems y.id e) x.id = _
            rw [Dict.find_put, if_neg, hf']
            rintro e2
            exact hy (e2 ▸ List.mem_map_of_mem hx)
          · rw [List.mem_singleton] at hx
            subst hx
            exact ⟨e, he, by show Dict.find (Dict.put d.elems x.id e) x.id = _; rw [Dict.find_put, if_pos rfl]⟩
      have := ih (xs ++ [y]) _ d' hstep (by simpa using hnd) hf
      simpa using this

/-- the data extracted from a file with distinct IDs -/
theorem getRs3Data_ok {doc : Rs3Doc} {d : Rs3Data} (h : getRs3Data doc = .ok d) (hnd : (doc.elems.map Rs3Xml.id).Nodup) :
    ReadFrom (extractRelationtypes doc.rels) doc.elems d := by
  have h0 : ReadFrom (extractRelationtypes doc.rels) [] ⟨[], [], []⟩ := ⟨rfl, fun i => rfl, fun i => by simp [Dict.has, Dict.find], rfl, by simp⟩
  simpa using readFrom_fold doc.elems [] _ d h0 (by simpa using hnd) h

end Dg
