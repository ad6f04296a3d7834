import Mathlib.Data.List.Basic
import Mathlib.Tactic.Common

/-!
# Choice of the mass function that goes with a bias model
(`/repo/src/halomod/halo_model.py` 129-139, `/repo/src/halomod/bias.py` `pair_hmf`,
`/repo/src/halomod/tools.py` 698-715)
-/
namespace Halomod.Pairing

/-- the bias classes of bias.py:78-748. -/
inductive BiasCls
  | unity | mo96 | jing98 | st99 | smt01 | seljak04 | seljak04Cosmo | tinker05 | mandelbaum05 | pillepich10
  | manera10 | tinker10 | tinker10PBSplit
  deriving DecidableEq, Repr

/-- mass functions of `hmf` named in /repo; the others by a number. -/
inductive Hmf
  | PS | SMT | Manera | Tinker10 | other (n : ℕ)
  deriving DecidableEq, Repr

/-- the class statement's base class, bias.py:171, 184, 211, 249, 288, 336, 386, 443, 464, 487, 526, 554, 617;
`none` is `Bias` itself. -/
def BiasCls.parent : BiasCls → Option BiasCls
  | .seljak04Cosmo => some .seljak04
  | .tinker05 => some .smt01
  | .mandelbaum05 => some .st99
  | .manera10 => some .st99
  | _ => none

/-- `pair_hmf` if the class body sets it, bias.py:178, 205, 277, 320, 550, 715; `N` is the list of normalised
mass functions `hmf` has registered (used by `UnityBias`). -/
def BiasCls.own (N : List Hmf) : BiasCls → Option (List Hmf)
  | .unity => some N
  | .mo96 => some [.PS]
  | .st99 => some [.SMT]
  | .smt01 => some [.SMT]
  | .manera10 => some [.Manera]
  | .tinker10PBSplit => some [.Tinker10]
  | _ => none

/-- attribute lookup of `pair_hmf` through the base classes (at most one between the class and `Bias`, whose
value is `()`, bias.py:116). -/
def BiasCls.pair (N : List Hmf) (b : BiasCls) : List Hmf :=
  match b.own N with
  | some l => l
  | none =>
    match b.parent with
    | none => []
    | some q => (q.own N).getD []

/-- the two parameters this file is about. -/
structure Model where
  bias : BiasCls
  hmf : Hmf

/-- `DMHaloModel.__init__`, halo_model.py:129-139: the first paired mass function, `"Tinker10"` when there is none
(`IndexError`), unless `hmf_model` was given. -/
def construct (N : List Hmf) (b : BiasCls) (given : Option Hmf) : Model where
  bias := b
  hmf := given.getD (match b.pair N with | h :: _ => h | [] => .Tinker10)

/-- `update(bias_model=.., hmf_model=..)`: the framework assigns the keywords given (halo_model.py:193-196; no
code of halomod reacts to a new bias model). -/
def Model.update (m : Model) (b : Option BiasCls) (h : Option Hmf) : Model := ⟨b.getD m.bias, h.getD m.hmf⟩

/-- does `norm_warn` warn about the mass function, and about the pair?  tools.py:698-715. -/
def Model.normWarn (N : List Hmf) (m : Model) : Bool × Bool := (m.hmf ∉ N, m.hmf ∉ m.bias.pair N)

end Halomod.Pairing
