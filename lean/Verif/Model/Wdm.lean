import Verif.Model.HaloModel

/-!
# Model of `/repo/src/halomod/wdm.py`

Part 1: the class factory `CMRelationWDMRescaled` on a heap of Python classes and dictionaries.
Part 2: the rescaled concentration.  Part 3: `HaloModelWDM`.
-/
namespace Halomod.Wdm

open Halomod.Tools Halomod.HaloModel

noncomputable section

/-! ## classes and their `_defaults` -/

/-- a dictionary of default parameters. -/
abbrev Dict := String → Option ℝ

/-- Classes are numbers; `mro c` is `c.__mro__` (the class itself first); `own c` is the identity of the
dictionary object stored under `_defaults` in the namespace of `c`, if any (two classes may hold the same
object: concentration.py:240 does `_defaults = base._defaults`); `dict` holds the contents of the
dictionary objects; `next` is the first unused class. -/
structure Heap where
  mro : ℕ → List ℕ
  own : ℕ → Option ℕ
  dict : ℕ → Dict
  next : ℕ

/-- attribute lookup `c._defaults`: the dictionary object found along the MRO. -/
def Heap.ref (H : Heap) (c : ℕ) : Option ℕ := (H.mro c).findSome? H.own

/-- contents of `c._defaults`. -/
def Heap.defaults (H : Heap) (c : ℕ) : Dict := fun k => (H.ref c).bind fun r => H.dict r k

/-- the dictionary of wdm.py:38. -/
def wdmDefaults : Dict := fun k =>
  if k = "g1" then some 60 else if k = "g2" then some 0.17
  else if k = "beta0" then some 0.026 else if k = "beta1" then some 0.04 else none

/-- `d.update(e)`. -/
def Dict.update (d e : Dict) : Dict := fun k => (e k).orElse fun _ => d k

/-- `CMRelationWDMRescaled`, wdm.py:18-43, on the class `x` found under the (stripped) name: a new class `K`
with base `x` and empty namespace, then `K._defaults.update(..)`.  The result is `K` and the heap. -/
def factory (H : Heap) (x : ℕ) : ℕ × Heap :=
  let K := H.next
  let mro' := fun c => if c = K then K :: H.mro x else H.mro c
  let own' := fun c => if c = K then none else H.own c
  let H1 : Heap := ⟨mro', own', H.dict, K + 1⟩
  match H1.ref K with
  | some r => (K, { H1 with dict := fun i => if i = r then (H.dict r).update wdmDefaults else H.dict i })
  | none => (K, H1)

/-- a history of factory calls. -/
def factories (H : Heap) : List ℕ → Heap
  | [] => H
  | x :: xs => factories (factory H x).2 xs

open Classical in
/-- `hmf`'s `Component.__init__` (external): unknown parameters raise, the others override the defaults. -/
def instantiate (H : Heap) (c : ℕ) (kw : Dict) : Option Dict :=
  if ∀ k, (kw k).isSome → (H.defaults c k).isSome then some ((H.defaults c).update kw) else none

/-- `name[:-3]` if the name ends in "WDM", wdm.py:20-21. -/
def stripWDM (name : List Char) : List Char :=
  if "WDM".toList.isSuffixOf name then name.take (name.length - 3) else name

/-- the class whose `__init__` runs at the nested call number `n` when an instance of the class `s` is made:
`super(self.__class__, self).__init__` (wdm.py:26) starts the search *after the class of the instance*, not
after the class the method was written in.  `hasInit c`: `c` defines `__init__`. -/
def initTarget (mro : List ℕ) (hasInit wdm : ℕ → Bool) : ℕ → Option ℕ
  | 0 => mro.find? hasInit
  | n + 1 =>
    match initTarget mro hasInit wdm n with
    | some c => if wdm c then (mro.drop 1).find? hasInit else none
    | none => none

/-! ## the rescaled concentration -/

/-- `cm` of the rescaled relation, wdm.py:29-36; `base` is the base class's relation. -/
def cmWdm (base : ℝ → ℝ → ℝ) (g1 g2 b0 b1 mhm m z : ℝ) : ℝ :=
  base m z * (1 + g1 * mhm / m) ^ (-g2) * (1 + z) ^ (b0 * z - b1)

/-! ## `HaloModelWDM` -/

/-- `f_halos`, wdm.py:62-65; `md` is `mean_density`. -/
def fHalos (h : HM) (md : ℝ) : ℝ := h.rhoGtm / md

/-- `bias_smooth`, wdm.py:99-105. -/
def biasSmooth (E : Env) (h : HM) (md : ℝ) : ℝ :=
  (1 - fHalos h md * h.biasEffMatter E) / (1 - fHalos h md)

/-- `power_auto_matter_hh`, wdm.py:76-83, at one wavenumber, given the 1- and 2-halo power there. -/
def powerHH (h : HM) (md p1 p2 : ℝ) : ℝ := (p1 + p2) * md ^ 2 / h.rhoGtm ^ 2

/-- `power_auto_matter_sh`, wdm.py:85-92, at wavenumber `k` where the profile of mass number `i` is `u i`. -/
def powerSH (E : Env) (h : HM) (md : ℝ) (u : ℕ → ℝ) (k : ℝ) : ℝ :=
  biasSmooth E h md * h.phc k * simpsonX h.nm h.m (fun i => h.m i * h.dndm i * h.bias i * u i) / h.rhoGtm

/-- `power_auto_matter_ss`, wdm.py:94-97. -/
def powerSS (E : Env) (h : HM) (md k : ℝ) : ℝ := biasSmooth E h md ^ 2 * h.phc k

/-- `power_auto_matter`, wdm.py:67-74. -/
def powerTotal (E : Env) (h : HM) (md : ℝ) (u : ℕ → ℝ) (p1 p2 k : ℝ) : ℝ :=
  (1 - fHalos h md) ^ 2 * powerSS E h md k
    + 2 * (1 - fHalos h md) * fHalos h md * powerSH E h md u k
    + fHalos h md ^ 2 * powerHH h md p1 p2

/-- `mean_density_halos`, wdm.py:107-110. -/
def meanDensityHalos (h : HM) : ℝ := h.rhoGtm

/-- `mean_density_smooth`, wdm.py:112-115. -/
def meanDensitySmooth (h : HM) (md : ℝ) : ℝ := (1 - fHalos h md) * md

end
end Halomod.Wdm
