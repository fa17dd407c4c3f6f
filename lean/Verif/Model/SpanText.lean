/-
The text of a span of an MMAX2 markable: `spanstring2text` (src/discoursegraphs/readwrite/mmax2.py).
-/
import Verif.Model.Coref

namespace Dg
namespace DG

/-- a word that can be joined with others.  Simplification: TypeError for attributes that are no strings -/
def spanWordOf : Val → Except PyErr (List Char)
  | .atom (.str w) => .ok w.toList
  | _ => .error .type

/-- readwrite/mmax2.py:406-413 `spanstring2text`.  `join` makes a list of the words before it looks at them: a missing attribute (KeyError) is found first. -/
def spanstring2text (g : DG) (s : String) : Except PyErr String := do
  let ts ← g.spanstring2tokens s
  let vs ← mapE (fun t => g.getAttr t (qual g.ns "token")) ts
  let ws ← mapE spanWordOf vs
  return String.ofList (joinChars [' '] ws)

end DG
end Dg
