import Verif.Model.Hod
import Verif.Prelude.Fl

/-!
# `hod.py` where special float values matter
-/
namespace Halomod.HOD

noncomputable section

/-- `Tinker05._satellite_occupation`, hod.py:454-465, with float64 special values: evaluated left to
right, `out * exp(-10**M_cut / (m - 10**M_min)) * (m / 10**M_1)`. -/
def tinkerSatFl (p : TinkerP) (m : ℝ) : Fl :=
  Fl.mul
    (Fl.mul (Fl.fin (zehaviCen p.M_min m))
      (Fl.exp (Fl.divFin (-(10 ^ p.M_cut)) (m - 10 ^ p.M_min))))
    (Fl.divFin m (10 ^ p.M_1))

/-- `HODPoisson.nc`, hod.py:233-235, with float64 division. -/
def ncFl (d : PoissonDef) (m : ℝ) : Fl := Fl.divFin (d.cen m) (d.tpc m)

/-- `HODPoisson.satellite_occupation` with `central=True` (hod.py:162-165) with float64 division. -/
def satCentralFl (d : PoissonDef) (m : ℝ) : Fl := Fl.mul (ncFl d m) (Fl.fin (d.sat m))

/-- `HODPoisson.ns`, hod.py:237-239, without the central condition (`satellite_occupation` is then the finite number
`_satellite_occupation`, hod.py:166-167), with float64 division. -/
def nsFl (d : PoissonDef) (m : ℝ) : Fl := Fl.divFin (d.sat m) (d.tps m)

end
end Halomod.HOD
