import Verif.Model.ExportXml
import Verif.Model.Urml

/-! No reader of a single document raises StopIteration (only the iteration over a corpus does). -/

namespace Dg

/-- the result is not the exception StopIteration -/
def NoStop {α : Type} (x : Except PyErr α) : Prop := x ≠ .error .stopIteration

namespace NoStop

theorem ok {α : Type} (a : α) : NoStop (.ok a : Except PyErr α) := fun h => by cases h
theorem pure' {α : Type} (a : α) : NoStop (pure a : Except PyErr α) := fun h => by cases h
theorem err {α : Type} {e : PyErr} (h : e ≠ .stopIteration) : NoStop (.error e : Except PyErr α) := fun h' => h (Except.error.inj h')

theorem bind {α β : Type} {x : Except PyErr α} {f : α → Except PyErr β} (hx : NoStop x) (hf : ∀ a, NoStop (f a)) : NoStop (x >>= f) := by
  cases x with
  | ok a => exact hf a
  | error e => exact fun h => hx (by cases h; rfl)

theorem map {α β : Type} {x : Except PyErr α} {f : α → β} (hx : NoStop x) : NoStop (x.map f) := by
  cases x with
  | ok a => exact ok _
  | error e => exact fun h => hx (by cases h; rfl)

theorem foldlM {α β : Type} {f : β → α → Except PyErr β} (hf : ∀ b a, NoStop (f b a)) : ∀ (xs : List α) (b : β), NoStop (xs.foldlM f b)
  | [], _ => pure' _
  | x :: xs, b => by
    rw [List.foldlM_cons]
    exact bind (hf b x) (fun b' => foldlM hf xs b')

theorem mapE {α β : Type} {f : α → Except PyErr β} (hf : ∀ a, NoStop (f a)) : ∀ xs : List α, NoStop (DG.mapE f xs)
  | [] => ok _
  | x :: xs => by
    unfold DG.mapE
    exact bind (hf x) (fun _ => bind (mapE hf xs) (fun _ => pure' _))

end NoStop

/-- one step towards showing that something does not raise StopIteration -/
syntax "nostop1" : tactic
macro_rules | `(tactic| nostop1) => `(tactic| split)
macro_rules | `(tactic| nostop1) => `(tactic| dsimp only)
macro_rules | `(tactic| nostop1) => `(tactic| refine NoStop.mapE (fun _ => ?_) _)
macro_rules | `(tactic| nostop1) => `(tactic| refine NoStop.foldlM (fun _ _ => ?_) _ _)
macro_rules | `(tactic| nostop1) => `(tactic| refine NoStop.map ?_)
macro_rules | `(tactic| nostop1) => `(tactic| refine NoStop.bind ?_ (fun _ => ?_))
macro_rules | `(tactic| nostop1) => `(tactic| exact NoStop.err (fun h => by cases h))
macro_rules | `(tactic| nostop1) => `(tactic| exact NoStop.pure' _)
macro_rules | `(tactic| nostop1) => `(tactic| exact NoStop.ok _)
macro_rules | `(tactic| nostop1) => `(tactic| assumption)

macro "nostop" : tactic => `(tactic| repeat' nostop1)

namespace DG

theorem noStop_strSet (v : Val) : NoStop (strSet v) := by unfold strSet; nostop
macro_rules | `(tactic| nostop1) => `(tactic| exact noStop_strSet _)
theorem noStop_checkLayers (g : DG) (v : Val) : NoStop (g.checkLayers v) := by unfold checkLayers; nostop
macro_rules | `(tactic| nostop1) => `(tactic| exact noStop_checkLayers _ _)
theorem noStop_layerSet (a : Attrs) : NoStop (layerSet a) := by unfold layerSet; nostop
macro_rules | `(tactic| nostop1) => `(tactic| exact noStop_layerSet _)
theorem noStop_layersOrEmpty (a : Attrs) : NoStop (layersOrEmpty a) := by unfold layersOrEmpty; nostop
macro_rules | `(tactic| nostop1) => `(tactic| exact noStop_layersOrEmpty _)
theorem noStop_mergeAttrArg (ad : AttrArg) (a : Attrs) (l : List Atom) : NoStop (mergeAttrArg ad a l .assertion) ∧ NoStop (mergeAttrArg ad a l .attribute) := by
  constructor <;> (unfold mergeAttrArg; nostop)
macro_rules | `(tactic| nostop1) => `(tactic| exact (noStop_mergeAttrArg _ _ _).1)
macro_rules | `(tactic| nostop1) => `(tactic| exact (noStop_mergeAttrArg _ _ _).2)
theorem noStop_addNode (g : DG) (n : NodeId) (l : Val) (ad : AttrArg) (a : Attrs) : NoStop (g.addNode n l ad a) := by unfold addNode; nostop
macro_rules | `(tactic| nostop1) => `(tactic| exact noStop_addNode _ _ _ _ _)
theorem noStop_addEdge (g : DG) (u v : NodeId) (l : Val) (k : Option Key) (ad : AttrArg) (a : Attrs) : NoStop (g.addEdge u v l k ad a) := by unfold addEdge; nostop
macro_rules | `(tactic| nostop1) => `(tactic| exact noStop_addEdge _ _ _ _ _ _ _)
theorem noStop_setAttr (g : DG) (n : NodeId) (k : String) (v : Val) : NoStop (g.setAttr n k v) := by unfold setAttr; nostop
macro_rules | `(tactic| nostop1) => `(tactic| exact noStop_setAttr _ _ _ _)
theorem noStop_getAttr (g : DG) (n : NodeId) (k : String) : NoStop (g.getAttr n k) := by unfold getAttr; nostop
macro_rules | `(tactic| nostop1) => `(tactic| exact noStop_getAttr _ _ _)
theorem noStop_updateNode (g : DG) (n : NodeId) (d : Attrs) : NoStop (g.updateNode n d) := by unfold updateNode; nostop
macro_rules | `(tactic| nostop1) => `(tactic| exact noStop_updateNode _ _ _)
theorem noStop_featAt (d : Attrs) (k : String) : NoStop (featAt d k) := by unfold featAt; nostop
macro_rules | `(tactic| nostop1) => `(tactic| exact noStop_featAt _ _)
theorem noStop_elemAttr (d : XAttrs) (k : String) : NoStop (elemAttr d k) := by unfold elemAttr; nostop
macro_rules | `(tactic| nostop1) => `(tactic| exact noStop_elemAttr _ _)
theorem noStop_removeNode (g : DG) (n : NodeId) : NoStop (g.removeNode n) := by unfold removeNode; nostop
macro_rules | `(tactic| nostop1) => `(tactic| exact noStop_removeNode _ _)

theorem noStop_batch {r : DG × Option PyErr} (h : r.2 ≠ some .stopIteration) : NoStop (batch r) := by
  unfold batch
  split
  · exact NoStop.ok _
  · next e he => exact NoStop.err (fun h' => h (by rw [he, h']))

theorem noStop_addLayer (g : DG) (n : NodeId) (v : Val) : NoStop (batch (g.addLayer (.node n) v)) := by
  refine noStop_batch ?_
  unfold addLayer
  split
  · dsimp only
    split
    · simp
    · split
      · next e he =>
        intro h
        exact noStop_layerSet _ (by rw [he, Option.some.inj h])
      · simp
  · simp
macro_rules | `(tactic| nostop1) => `(tactic| exact noStop_addLayer _ _ _)

theorem addPrecedenceLoop_noStop : ∀ (ts : List NodeId) (g : DG), (addPrecedenceLoop g ts).2 ≠ some .stopIteration
  | [], g => by simp [addPrecedenceLoop]
  | [_], g => by simp [addPrecedenceLoop]
  | a :: b :: rest, g => by
    unfold addPrecedenceLoop
    split
    · exact addPrecedenceLoop_noStop (b :: rest) _
    · next e he =>
      intro h
      refine noStop_addEdge g a b g.precedenceLayers none .none [("edge_type", .atom (.str precedenceRelation))] ?_
      rw [← Option.some.inj h]
      exact he

theorem noStop_addPrecedence (g : DG) : NoStop (batch g.addPrecedenceRelations) := by
  refine noStop_batch ?_
  unfold addPrecedenceRelations
  split
  · split
    · exact addPrecedenceLoop_noStop _ _
    · next e he =>
      intro h
      refine noStop_addEdge g g.root _ g.precedenceLayers none .none [("edge_type", .atom (.str precedenceRelation))] (he.trans ?_)
      rw [Option.some.inj h]
  · simp
macro_rules | `(tactic| nostop1) => `(tactic| exact noStop_addPrecedence _)

/-! ### ExportXML -/

theorem noStop_elementId (r : XRow) : NoStop (expElementId r) := by unfold expElementId; nostop
macro_rules | `(tactic| nostop1) => `(tactic| exact noStop_elementId _)
theorem noStop_parentId (r : XRow) : NoStop (expParentId r) := by unfold expParentId; nostop
macro_rules | `(tactic| nostop1) => `(tactic| exact noStop_parentId _)
theorem noStop_sentenceId (r : XRow) : NoStop (expSentenceId r) := by unfold expSentenceId; nostop
macro_rules | `(tactic| nostop1) => `(tactic| exact noStop_sentenceId _)
theorem noStop_wordParent (r : XRow) : NoStop (expWordParent r) := by unfold expWordParent; nostop
macro_rules | `(tactic| nostop1) => `(tactic| exact noStop_wordParent _)
theorem noStop_nodeParent (r : XRow) : NoStop (expNodeParent r) := by unfold expNodeParent; nostop
macro_rules | `(tactic| nostop1) => `(tactic| exact noStop_nodeParent _)

theorem noStop_unpack2 (c : List Char) : NoStop (unpack2 c) := by unfold unpack2; nostop
macro_rules | `(tactic| nostop1) => `(tactic| exact noStop_unpack2 _)
theorem noStop_intOrError (c : List Char) : NoStop (intOrError c) := by unfold intOrError; nostop
macro_rules | `(tactic| nostop1) => `(tactic| exact noStop_intOrError _)
theorem noStop_convertSpan (c : List Char) : NoStop (convertSpan c) := by unfold convertSpan; nostop
macro_rules | `(tactic| nostop1) => `(tactic| exact noStop_convertSpan _)
theorem noStop_convertSpans : ∀ cs : List (List Char), NoStop (convertSpans cs)
  | [] => NoStop.ok _
  | c :: cs => by
    have ih := noStop_convertSpans cs
    unfold convertSpans
    nostop
macro_rules | `(tactic| nostop1) => `(tactic| exact noStop_convertSpans _)
theorem noStop_convertSpanChars (c : List Char) : NoStop (convertSpanChars c) := by unfold convertSpanChars; nostop
macro_rules | `(tactic| nostop1) => `(tactic| exact noStop_convertSpanChars _)
theorem noStop_convertSpanstring (c : String) : NoStop (convertSpanstring c) := by unfold convertSpanstring; nostop
macro_rules | `(tactic| nostop1) => `(tactic| exact noStop_convertSpanstring _)
theorem noStop_sentenceTokens (r : XRow) : NoStop (expSentenceTokens r) := by unfold expSentenceTokens; nostop
macro_rules | `(tactic| nostop1) => `(tactic| exact noStop_sentenceTokens _)
theorem noStop_expSpans (n l : String) (g : DG) (x : XRow) : NoStop (expSpans n l g x) := by unfold expSpans; nostop
macro_rules | `(tactic| nostop1) => `(tactic| exact noStop_expSpans _ _ _ _)
theorem noStop_expConnective (r : XRow) (g : DG) : NoStop (expConnective r g) := by
  unfold expConnective
  refine NoStop.bind (noStop_elementId _) (fun n => ?_)
  refine NoStop.bind (noStop_addLayer _ _ _) (fun g1 => noStop_updateNode _ _ _)
macro_rules | `(tactic| nostop1) => `(tactic| exact noStop_expConnective _ _)
theorem noStop_expEdu (r : XRow) (g : DG) : NoStop (expEdu r g) := by unfold expEdu; nostop
macro_rules | `(tactic| nostop1) => `(tactic| exact noStop_expEdu _ _)
theorem noStop_expEdurange (r : XRow) (g : DG) : NoStop (expEdurange r g) := by unfold expEdurange; nostop
macro_rules | `(tactic| nostop1) => `(tactic| exact noStop_expEdurange _ _)
theorem noStop_expNe (r : XRow) (g : DG) : NoStop (expNe r g) := by
  unfold expNe
  exact NoStop.bind (noStop_elementId _) (fun n => NoStop.bind (noStop_elemAttr _ _) (fun ty => NoStop.bind (noStop_addNode _ _ _ _ _) (fun g1 =>
    NoStop.foldlM (fun g c => NoStop.bind (noStop_elementId _) (fun w => noStop_addEdge _ _ _ _ _ _ _)) _ _)))
macro_rules | `(tactic| nostop1) => `(tactic| exact noStop_expNe _ _)
theorem noStop_expNode (r : XRow) (g : DG) : NoStop (expNode r g) := by unfold expNode; nostop
macro_rules | `(tactic| nostop1) => `(tactic| exact noStop_expNode _ _)
theorem noStop_expSentence (r : XRow) (g : DG) : NoStop (expSentence r g) := by unfold expSentence; nostop
macro_rules | `(tactic| nostop1) => `(tactic| exact noStop_expSentence _ _)
theorem noStop_expTopic (r : XRow) (g : DG) : NoStop (expTopic r g) := by unfold expTopic; nostop
macro_rules | `(tactic| nostop1) => `(tactic| exact noStop_expTopic _ _)
theorem noStop_expWord (r : XRow) (g : DG) : NoStop (expWord r g) := by unfold expWord; nostop
macro_rules | `(tactic| nostop1) => `(tactic| exact noStop_expWord _ _)
theorem noStop_expDiscrel (o : ExpOpts) (r : XRow) (g : DG) : NoStop (expDiscrel o r g) := by unfold expDiscrel; nostop
macro_rules | `(tactic| nostop1) => `(tactic| exact noStop_expDiscrel _ _ _)
theorem noStop_expRelation (o : ExpOpts) (r : XRow) (g : DG) : NoStop (expRelation o r g) := by unfold expRelation; nostop
macro_rules | `(tactic| nostop1) => `(tactic| exact noStop_expRelation _ _ _)
theorem noStop_expSecedge (o : ExpOpts) (r : XRow) (g : DG) : NoStop (expSecedge o r g) := by unfold expSecedge; nostop
macro_rules | `(tactic| nostop1) => `(tactic| exact noStop_expSecedge _ _ _)
theorem noStop_expSplit (o : ExpOpts) (r : XRow) (g : DG) : NoStop (expSplit o r g) := by unfold expSplit; nostop
macro_rules | `(tactic| nostop1) => `(tactic| exact noStop_expSplit _ _ _)
theorem noStop_ite {α : Type} {c : Prop} [Decidable c] {x y : Except PyErr α} (hx : NoStop x) (hy : NoStop y) : NoStop (if c then x else y) := by split <;> assumption

theorem noStop_expStep (o : ExpOpts) (g : DG) (r : XRow) : NoStop (expStep o g r) := by
  unfold expStep
  refine noStop_ite (noStop_expConnective _ _) (noStop_ite (noStop_expDiscrel _ _ _) (noStop_ite (noStop_expEdu _ _) (noStop_ite (noStop_expEdurange _ _) (noStop_ite (noStop_expNe _ _) (noStop_ite (noStop_expNode _ _) (noStop_ite (noStop_expRelation _ _ _) (noStop_ite (noStop_expSecedge _ _ _) (noStop_ite (noStop_expSentence _ _) (noStop_ite (noStop_expSplit _ _ _) (noStop_ite (noStop_expTopic _ _) (noStop_ite (noStop_expWord _ _) (NoStop.err (fun h => by cases h)))))))))))))
macro_rules | `(tactic| nostop1) => `(tactic| exact noStop_expStep _ _ _)
mutual
theorem noStop_expElem (o : ExpOpts) : ∀ (anc : List XElem) (g : DG) (e : XElem), NoStop (expElem o anc g e)
  | anc, g, .mk t i a cs => by
    unfold expElem
    refine NoStop.bind (noStop_expStep _ _ _) (fun g1 => ?_)
    split
    · exact noStop_expChildren o _ _ cs
    · exact NoStop.ok _
theorem noStop_expChildren (o : ExpOpts) : ∀ (anc : List XElem) (g : DG) (cs : List XElem), NoStop (expChildren o anc g cs)
  | _, _, [] => NoStop.ok _
  | anc, g, c :: cs => by
    unfold expChildren
    exact NoStop.bind (noStop_expElem o anc g c) (fun g1 => noStop_expChildren o anc g1 cs)
end
macro_rules | `(tactic| nostop1) => `(tactic| exact noStop_expElem _ _ _ _)

theorem noStop_expRead (name : Option String) (ns : String) (p : Bool) (o : ExpOpts) (t : XElem) : NoStop (expRead name ns p o t) := by unfold expRead; nostop
macro_rules | `(tactic| nostop1) => `(tactic| exact noStop_expRead _ _ _ _ _)

/-! ### URML -/

theorem noStop_urmlAddToken (seg : String) (g : DG) (p : Option (List Char) × Nat) : NoStop (urmlAddToken seg g p) := by unfold urmlAddToken; nostop
macro_rules | `(tactic| nostop1) => `(tactic| exact noStop_urmlAddToken _ _ _)
theorem noStop_urmlAddSegment (doc : UrmlDoc) (tok : Bool) (st : DG × List NodeId) (s : UrmlSeg) : NoStop (urmlAddSegment doc tok st s) := by unfold urmlAddSegment; nostop
macro_rules | `(tactic| nostop1) => `(tactic| exact noStop_urmlAddSegment _ _ _ _)
theorem noStop_urmlAddRelation (g : DG) (r : UrmlRel) : NoStop (urmlAddRelation g r) := by unfold urmlAddRelation; nostop
macro_rules | `(tactic| nostop1) => `(tactic| exact noStop_urmlAddRelation _ _)
theorem noStop_dagDist (g : DG) : ∀ (k : Nat) (n : NodeId), NoStop (g.dagDist k n)
  | 0, _ => NoStop.err (fun h => by cases h)
  | k + 1, n => by
    unfold dagDist
    refine NoStop.bind (NoStop.mapE (fun v => NoStop.bind (noStop_dagDist g k v) (fun _ => NoStop.pure' _)) _) (fun ds => ?_)
    nostop
macro_rules | `(tactic| nostop1) => `(tactic| exact noStop_dagDist _ _ _)
theorem noStop_dagBack (g : DG) (depth : Nat) : ∀ (k : Nat) (n : NodeId), NoStop (g.dagBack depth k n)
  | 0, _ => NoStop.pure' _
  | k + 1, n => by
    unfold dagBack
    exact NoStop.bind (noStop_dagDist g depth n) (fun d => NoStop.bind (noStop_dagBack g depth k d.2) (fun _ => NoStop.pure' _))
macro_rules | `(tactic| nostop1) => `(tactic| exact noStop_dagBack _ _ _ _)
theorem noStop_dagLongestPath (g : DG) : NoStop (g.dagLongestPath) := by unfold dagLongestPath; nostop
macro_rules | `(tactic| nostop1) => `(tactic| exact noStop_dagLongestPath _)
theorem noStop_urmlSetRoot (g : DG) : NoStop (g.urmlSetRoot) := by unfold urmlSetRoot; nostop
macro_rules | `(tactic| nostop1) => `(tactic| exact noStop_urmlSetRoot _)
theorem noStop_urml2graph (g : DG) (tok : Bool) (doc : UrmlDoc) : NoStop (g.urml2graph tok doc) := by unfold urml2graph; nostop
macro_rules | `(tactic| nostop1) => `(tactic| exact noStop_urml2graph _ _ _)
theorem noStop_urmlRead (name : Option String) (ns : String) (tok p : Bool) (doc : UrmlDoc) : NoStop (urmlRead name ns tok p doc) := by unfold urmlRead; nostop
macro_rules | `(tactic| nostop1) => `(tactic| exact noStop_urmlRead _ _ _ _ _)

end DG
end Dg
