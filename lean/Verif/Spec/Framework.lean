import Verif.Model.Framework

/-! # Reference semantics for C51: no cache at all -/
namespace Halomod.Framework

/-- The value of a computation when everything it needs is recomputed from the current inputs. -/
inductive Cls.Val {α V : Type} (C : Cls α V) (store : α → V) : Prog α V → V → Prop
  | ret (v : V) : C.Val store (.ret v) v
  | input {a : α} {k : V → Prog α V} {v : V} (h : C.kind a = .param ∨ C.kind a = .attr)
      (hk : C.Val store (k (store a)) v) : C.Val store (.read a k) v
  | computed {a : α} {k : V → Prog α V} {u v : V} (h : C.kind a = .cached ∨ C.kind a = .plain)
      (hb : C.Val store (C.body a) u) (hk : C.Val store (k u) v) : C.Val store (.read a k) v

/-- attribute `a`'s computation mentions `b`, or mentions something that depends on `b`. -/
inductive DependsOn : Node → Node → Prop
  | direct {a b : Node} (h : b ∈ a.reads) : DependsOn a b
  | trans {a c b : Node} (h : c ∈ a.reads) (hb : DependsOn c b) : DependsOn a b

/-- the inputs after a history: the last assignment to each attribute wins. -/
def lastAssigned {α V : Type} [DecidableEq α] (store : α → V) : List (Op α V) → α → V
  | [] => store
  | .set a v :: l => lastAssigned (Function.update store a v) l
  | .get _ _ :: l => lastAssigned store l

end Halomod.Framework
