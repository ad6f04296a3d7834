import Verif.Model.Hod
import Verif.Spec.Counts
import Mathlib.Algebra.BigOperators.Group.List.Basic
import Mathlib.Algebra.BigOperators.Fin

/-!
# Model of `populate`, `/repo/src/halomod/tools.py:349-480`, and of `Profile.populate`,
`/repo/src/halomod/profiles.py:508-545`

The catalogue bookkeeping is modelled with lists; `none` stands for a Python exception.  Masses `M` and
positions `P` are arbitrary types.  The random draws are parameters: the 0/1 central draws, the function
drawing satellite numbers for an array of masses, and the function drawing the positions of the
satellites of a halo.  `junk` is the uninitialised memory returned by `np.empty`.
-/
namespace Halomod.Populate

/-- numpy boolean-mask indexing `a[mask]`. -/
def mask {α : Type} (a : List α) (b : List Bool) : List α :=
  ((a.zip b).filter (·.2)).map (·.1)

/-- numpy integer-array indexing `a[idx]` (an index out of range raises `IndexError`). -/
def fancy {α : Type} (a : List α) (idx : List ℕ) : Option (List α) := idx.mapM (a[·]?)

/-- `a[lo:hi] = new`; a length mismatch raises `ValueError`.
Simplification: numpy's broadcasting of a length-1 right-hand side is not modelled. -/
def setSlice {α : Type} (a : List α) (lo hi : ℕ) (new : List α) : Option (List α) :=
  if lo ≤ hi ∧ hi ≤ a.length ∧ new.length = hi - lo then
    some (a.take lo ++ new ++ a.drop hi)
  else none

/-- `np.repeat(a, counts)`. -/
def repeat_ {α : Type} (a : List α) (counts : List ℕ) : List α :=
  (a.zip counts).flatMap fun p => List.replicate p.2 p.1

/-- Everything `populate` gets from outside: its arguments, the HOD's central flag, random draws. -/
structure In (M P : Type) where
  centres : List P
  masses : List M
  /-- `hodmod._central` -/
  central : Bool
  /-- `rng.binomial(1, hodmod.central_occupation(masses))`, tools.py:404 -/
  cgal : List ℕ
  /-- `poisson.rvs(hodmod.ns(masses), random_state=rng)`, tools.py:416, as a function of the masses -/
  drawSat : List M → List ℕ
  /-- `profile.populate(n, m, centre=ctr, rng=rng)`, tools.py:458, on the `i`-th call -/
  draw : ℕ → ℕ → M → P → List P
  /-- initial content of `np.empty` arrays -/
  junkPos : ℕ → List P
  junkHalo : ℕ → List ℕ

/-- The catalogue `(pos, halo, ncen)`. -/
structure Out (P : Type) where
  pos : List P
  halo : List ℕ
  ncen : ℕ

variable {M P : Type}

/-- `fill_array`, tools.py:453-456. -/
def fillArray (draw : ℕ → ℕ → M → P → List P) (masses : List M) (sgal : List ℕ) (centres : List P)
    (indx : List ℕ) (pos : List P) (i : ℕ) : Option (List P) := do
  let m ← masses[i]?
  let n ← sgal[i]?
  let ctr ← centres[i]?
  let lo ← indx[i]?
  let hi ← indx[i + 1]?
  setSlice pos lo hi (draw i n m ctr)

/-- `populate`, tools.py:349-480, without the periodic wrapping (see `wrap`).
`pool = true` is the branch with pathos installed (tools.py:458-459): `fill_array` then runs in child
processes, whose writes to `pos` are not seen by the parent.  Line 463 counts haloes with galaxies and
lines 465-468 divide by that count, which raises `ZeroDivisionError` for an empty catalogue. -/
def populate (pool : Bool) (x : In M P) : Option (Out P) := do
  let cmask := x.cgal.map (fun c => decide (c > 0))                       -- 405
  let centralHalos := mask (List.range x.masses.length) cmask             -- 406
  let masses := if x.central then mask x.masses cmask else x.masses       -- 408-409
  let centres := if x.central then mask x.centres cmask else x.centres    -- 410
  let sgal := x.drawSat masses                                            -- 416
  let ncen := x.cgal.sum                                                  -- 419
  let nsat := sgal.sum                                                    -- 420
  let pos := x.junkPos (ncen + nsat)                                      -- 422
  let halo := x.junkHalo (ncen + nsat)                                    -- 423
  let halo ← setSlice halo 0 ncen centralHalos                            -- 426
  let pos ← setSlice pos 0 ncen (if x.central then centres else mask centres cmask)  -- 427-430
  let smask := sgal.map (fun s => decide (s > 0))                         -- 432
  let satHalos ←
    (if x.central then fancy centralHalos (mask (List.range masses.length) smask)
     else some (mask (List.range masses.length) smask))                   -- 436-439
  let sgal := mask sgal smask                                             -- 441
  let centres := mask centres smask                                       -- 442
  let masses := mask masses smask                                         -- 443
  let halo ← setSlice halo ncen halo.length (repeat_ satHalos sgal)       -- 447
  let indx := (sgal.scanl (· + ·) 0).map (· + ncen)                       -- 448
  let pos ←
    (if pool then some pos                                                -- 458-459
     else (List.range masses.length).foldlM (fillArray x.draw masses sgal centres indx) pos)  -- 461-462
  if (List.dedup (centralHalos ++ satHalos)).length = 0 then none         -- 463-468
  else some { pos := pos, halo := halo, ncen := ncen }                    -- 480

/-! ## positions -/

noncomputable section

/-- `pos *= r / np.sqrt(np.sum(pos**2, axis=0)); return pos.T + centre`, profiles.py:542-545, for one
satellite: `r = r_s * x` and `g` a draw of three normals. -/
def place (rs x : ℝ) (g centre : Fin 3 → ℝ) : Fin 3 → ℝ := fun j =>
  g j * (rs * x / Real.sqrt (∑ i, g i ^ 2)) + centre j

/-- The `edges` argument, tools.py:368-371. -/
inductive Edges where
  | scalar (e : ℝ)
  | pair (lo hi : ℝ)
  | full (lo hi : Fin 3 → ℝ)

/-- tools.py:470-473: lower edges. -/
def Edges.lo : Edges → Fin 3 → ℝ
  | .scalar _ => fun _ => 0
  | .pair lo _ => fun _ => lo
  | .full lo _ => lo

/-- tools.py:470-473: upper edges. -/
def Edges.hi : Edges → Fin 3 → ℝ
  | .scalar e => fun _ => e
  | .pair _ hi => fun _ => hi
  | .full _ hi => hi

/-- tools.py:475-479 for one coordinate: first the lower, then the upper edge. -/
def wrap1 (lo hi x : ℝ) : ℝ :=
  let x := if x - lo < 0 then hi + (x - lo) else x
  if x - hi > 0 then lo + (x - hi) else x

/-- tools.py:474-479 for one position. -/
def wrap (e : Edges) (p : Fin 3 → ℝ) : Fin 3 → ℝ := fun j => wrap1 (e.lo j) (e.hi j) (p j)

/-! ## expected counts for one halo -/

/-- Mean of a function of (centrals, satellites) that `populate` gives to a halo of mass `m`:
the central is a 0/1 draw with mean `central_occupation(m)` (tools.py:404); satellites are Poisson with
mean `ns(m)` (416), drawn only for haloes with a central if `_central` (408-410). -/
def haloMean (h : HOD.Hod) (m : ℝ) (f : ℕ → ℕ → ℝ) : ℝ :=
  if h.central then
    (1 - h.cenOcc m) * f 0 0 + h.cenOcc m * Spec.poissonE (h.ns m) (f 1)
  else
    (1 - h.cenOcc m) * Spec.poissonE (h.ns m) (f 0) + h.cenOcc m * Spec.poissonE (h.ns m) (f 1)

end

end Halomod.Populate
