import Verif.Model.Sample

/-! # Model of `populate` with a profile and a box: `/repo/src/halomod/tools.py:349-480` together with
`Profile.populate`, `/repo/src/halomod/profiles.py:508-545`

`Model/Populate.lean` has the bookkeeping, for any way of drawing positions, and the periodic wrapping of one position;
`Model/Sample.lean` has one tracer of a profile.  Here they are put together. -/
namespace Halomod.Profiles

open Halomod.Tools Halomod.Populate Halomod.HaloModel

noncomputable section

/-- `profile.populate(n, m, centre=centre, rng=rng)`, profiles.py:508-545, called as in tools.py:448 (no concentration
given): `n` tracers, the `k`-th using the uniform deviate `U k` and the normals `G k`. -/
def Shape.populateN (s : Shape) (e : Env) (isp : Spl) (U : ℕ → ℝ) (G : ℕ → Fin 3 → ℝ) (n : ℕ) (m : ℝ) (centre : Fin 3 → ℝ) :
    List (Fin 3 → ℝ) :=
  (List.range n).filterMap fun k => (s.populateOne e isp m none centre (U k) (G k)).toOption

/-- the inputs of `populate` when satellites are drawn from the profile `s`: `U i k`, `G i k` are the random numbers of the
`k`-th tracer of the `i`-th call of `profile.populate` (tools.py:445-448). -/
def profileIn (s : Shape) (e : Env) (isp : Spl) (U : ℕ → ℕ → ℝ) (G : ℕ → ℕ → Fin 3 → ℝ) (centres : List (Fin 3 → ℝ)) (masses : List ℝ)
    (central : Bool) (cgal : List ℕ) (drawSat : List ℝ → List ℕ) (junkPos : ℕ → List (Fin 3 → ℝ)) (junkHalo : ℕ → List ℕ) :
    In ℝ (Fin 3 → ℝ) where
  centres := centres
  masses := masses
  central := central
  cgal := cgal
  drawSat := drawSat
  draw := fun i n m ctr => s.populateN e isp (U i) (G i) n m ctr
  junkPos := junkPos
  junkHalo := junkHalo

/-- `populate(..., edges=edges)`, tools.py:349-480: the catalogue, then lines 468-478 on its positions. -/
def populateBox (edges : Option Edges) (x : In ℝ (Fin 3 → ℝ)) : Option (Out (Fin 3 → ℝ)) :=
  (populate false x).map fun o => match edges with
    | none => o
    | some ed => { o with pos := o.pos.map (wrap ed) }

end
end Halomod.Profiles
