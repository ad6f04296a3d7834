import Verif.Model.HaloReads
import Mathlib.Data.Set.Lattice

/-!
# Cached quantities with recorded dependencies

The classes of halomod declare inputs with `@parameter` and results with `@cached_quantity`
(`/repo/src/halomod/halo_model.py` 193-331, 336-900, 997-1665; `/repo/src/halomod/integrate_corr.py` 59-121,
303-470).  Both decorators come from `hmf` (imported at halo_model.py:20), which is not part of /repo:
its documented behaviour is modelled here (trusted base) — a cached quantity is computed on first read, together with
the set of parameters read while computing it, and forgotten when one of these is set.
-/
namespace Halomod.Framework

/-- A computation that reads attributes of `self`: which ones are read may depend on the values seen so far
(the `if` branches of the bodies, e.g. halo_model.py:424-429). -/
inductive Prog (α V : Type) where
  | ret (v : V)
  | read (a : α) (k : V → Prog α V)

/-- the computation only ever reads attributes in `S`. -/
def Prog.Within {α V : Type} (S : α → Prop) : Prog α V → Prop
  | .ret _ => True
  | .read a k => S a ∧ ∀ v, (k v).Within S

/-- A class: how each attribute is declared and, for computed ones, the computation. -/
structure Cls (α V : Type) where
  kind : α → Kind
  body : α → Prog α V

/-- the state of an object: the values of parameters and plain attributes, and for each cached quantity the cached
value with the parameters read when it was computed. -/
structure St (α V : Type) where
  store : α → V
  cache : α → Option (V × Set α)

open Classical in
/-- assigning to an attribute.  A `@parameter` is stored and the quantities that read it are forgotten
(decorators at halo_model.py:193-331); a plain attribute (halo_model.py:159-160, 174) is only stored. -/
noncomputable def Cls.set {α V : Type} [DecidableEq α] (C : Cls α V) (s : St α V) (a : α) (v : V) : St α V where
  store := Function.update s.store a v
  cache := if C.kind a = .param then fun c => (s.cache c).filter (fun e => a ∉ e.2) else s.cache

/-- Running a computation in a state: final state, result, and the set of parameters read (through caches
too).  Reading a cached quantity for the first time runs its body and stores the result. -/
inductive Cls.Run {α V : Type} [DecidableEq α] (C : Cls α V) : St α V → Prog α V → St α V → V → Set α → Prop
  | ret (s : St α V) (v : V) : C.Run s (.ret v) s v ∅
  | param {s s' : St α V} {a : α} {k : V → Prog α V} {v : V} {D : Set α} (h : C.kind a = .param)
      (hk : C.Run s (k (s.store a)) s' v D) : C.Run s (.read a k) s' v ({a} ∪ D)
  | attr {s s' : St α V} {a : α} {k : V → Prog α V} {v : V} {D : Set α} (h : C.kind a = .attr)
      (hk : C.Run s (k (s.store a)) s' v D) : C.Run s (.read a k) s' v D
  | hit {s s' : St α V} {a : α} {k : V → Prog α V} {u v : V} {E D : Set α} (h : C.kind a = .cached)
      (hc : s.cache a = some (u, E)) (hk : C.Run s (k u) s' v D) : C.Run s (.read a k) s' v (E ∪ D)
  | miss {s s₁ s' : St α V} {a : α} {k : V → Prog α V} {u v : V} {E D : Set α} (h : C.kind a = .cached)
      (hc : s.cache a = none) (hb : C.Run s (C.body a) s₁ u E)
      (hk : C.Run { s₁ with cache := Function.update s₁.cache a (some (u, E)) } (k u) s' v D) :
      C.Run s (.read a k) s' v (E ∪ D)
  | plain {s s₁ s' : St α V} {a : α} {k : V → Prog α V} {u v : V} {E D : Set α} (h : C.kind a = .plain)
      (hb : C.Run s (C.body a) s₁ u E) (hk : C.Run s₁ (k u) s' v D) : C.Run s (.read a k) s' v (E ∪ D)

/-- what a user does with an object: assign an attribute, or read one and see a value. -/
inductive Op (α V : Type) where
  | set (a : α) (v : V)
  | get (a : α) (v : V)

/-- a history of assignments and reads leads from one state to another; each read records the value seen.
Only parameters and plain attributes can be assigned (assigning to a computed property raises). -/
inductive Cls.Hist {α V : Type} [DecidableEq α] (C : Cls α V) : St α V → List (Op α V) → St α V → Prop
  | nil (s : St α V) : C.Hist s [] s
  | set {s s' : St α V} {a : α} {v : V} {l : List (Op α V)}
      (ha : C.kind a = .param ∨ C.kind a = .attr) (h : C.Hist (C.set s a v) l s') :
      C.Hist s (.set a v :: l) s'
  | get {s s₁ s' : St α V} {a : α} {v : V} {D : Set α} {l : List (Op α V)}
      (hr : C.Run s (.read a .ret) s₁ v D) (h : C.Hist s₁ l s') : C.Hist s (.get a v :: l) s'

/-- a new object: inputs given, nothing computed yet. -/
def fresh {α V : Type} (store : α → V) : St α V := ⟨store, fun _ => none⟩

/-- A class of /repo: declarations and reads as in the generated table (halo_model.py, integrate_corr.py); the values
computed are arbitrary functions of what is read. -/
structure IsHalo {V : Type} (C : Cls Node V) : Prop where
  kind : C.kind = Node.kind
  reads : ∀ a, (C.body a).Within (fun b => b ∈ a.reads)

end Halomod.Framework
