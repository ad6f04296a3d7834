import Verif.Spec.Framework
import Verif.Model.CrossReads

/-! # Vocabulary for C57 -/
namespace Halomod.Framework

/-- in a graph of reads, `a` mentions `b` or mentions something that reaches `b`. -/
inductive Reaches {α : Type} (reads : α → List α) : α → α → Prop
  | direct {a b : α} (h : b ∈ reads a) : Reaches reads a b
  | trans {a c b : α} (h : c ∈ reads a) (hb : Reaches reads c b) : Reaches reads a b

/-- the quantities of the cross-correlation object itself, that is, not those of one of its two tracer models. -/
def CNode.Own : CNode → Prop
  | .hm _ _ => False
  | _ => True

end Halomod.Framework
