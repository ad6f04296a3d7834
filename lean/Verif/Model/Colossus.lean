import Mathlib.Data.List.Basic
import Mathlib.Tactic.Common

/-!
# Components computed by `colossus`
(`/repo/src/halomod/concentration.py` 188-226 `make_colossus_cm`, `/repo/src/halomod/bias.py` 802-832
`make_colossus_bias`)

`colossus` (external) keeps one current cosmology per process: `fromAstropy` makes the given cosmology the
current one, `concentration.concentration` and `haloBiasFromNu` use the current one.  Native components use the
cosmology stored in the object (concentration.py:131-134, bias.py:141-145).
-/
namespace Halomod.Colossus

/-- A component object: whether it is computed by `colossus`, and the cosmology (with `sigma_8`, `n_s`) it was
constructed with (concentration.py:122-136, bias.py:135-146). -/
structure Obj (Cosmo : Type) where
  viaColossus : Bool
  cosmo : Cosmo

/-- The process: objects built so far, and the current cosmology of `colossus`. -/
structure Proc (Cosmo : Type) where
  objs : List (Obj Cosmo)
  current : Option Cosmo

/-- What a program does: build a component, or evaluate the `i`-th one at an argument (masses, redshift). -/
inductive Ev (Cosmo X : Type) where
  | build (viaColossus : Bool) (c : Cosmo)
  | eval (i : ℕ) (x : X)

/-- Constructing a component: the base constructor stores the cosmology; the classes made by
`make_colossus_cm` / `make_colossus_bias` then call `fromAstropy` (concentration.py:201-210, bias.py:815-818). -/
def Proc.build {Cosmo : Type} (p : Proc Cosmo) (v : Bool) (c : Cosmo) : Proc Cosmo where
  objs := p.objs ++ [⟨v, c⟩]
  current := if v then some c else p.current

/-- Evaluating component `i`: `F i c x` is the relation of component `i` in cosmology `c`.  Native: own cosmology;
via `colossus` (concentration.py:212-221, bias.py:820-827): the current one, an exception if there is none.
`none` also for an index out of range. -/
def Proc.eval {Cosmo X Y : Type} (F : ℕ → Cosmo → X → Y) (p : Proc Cosmo) (i : ℕ) (x : X) : Option Y := do
  let o ← p.objs[i]?
  if o.viaColossus then
    let c ← p.current
    pure (F i c x)
  else pure (F i o.cosmo x)

/-- Running a program from an empty process, with the values of its evaluations. -/
def run {Cosmo X Y : Type} (F : ℕ → Cosmo → X → Y) : Proc Cosmo → List (Ev Cosmo X) → Proc Cosmo × List (Option Y)
  | p, [] => (p, [])
  | p, .build v c :: l => run F (p.build v c) l
  | p, .eval i x :: l => let r := run F p l; (r.1, p.eval F i x :: r.2)

end Halomod.Colossus
