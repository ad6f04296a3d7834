import Mathlib.Data.List.Basic
import Mathlib.Algebra.BigOperators.Group.List.Basic

/-!
# Specification of a mock catalogue

Independent of the model: a list of haloes (index, mass, centre, whether it got a central), the rule
saying which haloes may host satellites, and the catalogue rows they give.
-/
namespace Halomod.Spec

/-- A halo as the user sees it. -/
structure Halo (M P : Type) where
  idx : ℕ
  mass : M
  centre : P
  hasCentral : Bool

/-- haloes that may host satellites: all, or with the central condition those with a central. -/
def hosts {M P : Type} (central : Bool) (H : List (Halo M P)) : List (Halo M P) :=
  if central then H.filter (·.hasCentral) else H

/-- halo column of the catalogue: centrals first, then `n` rows for each host with `n` satellites. -/
def haloColumn {M P : Type} (central : Bool) (H : List (Halo M P)) (counts : List ℕ) : List ℕ :=
  (H.filter (·.hasCentral)).map (·.idx) ++
    ((hosts central H).zip counts).flatMap fun p => List.replicate p.2 p.1.idx

/-- hosts that received at least one satellite, with their number, numbered in order. -/
def occupied {M P : Type} (central : Bool) (H : List (Halo M P)) (counts : List ℕ) :
    List ((Halo M P × ℕ) × ℕ) :=
  (((hosts central H).zip counts).filter (fun p => p.2 > 0)).zipIdx

/-- position column: centres of the centrals, then one block per occupied host drawn around its centre
for its mass. -/
def posColumn {M P : Type} (central : Bool) (H : List (Halo M P)) (counts : List ℕ)
    (draw : ℕ → ℕ → M → P → List P) : List P :=
  (H.filter (·.hasCentral)).map (·.centre) ++
    (occupied central H counts).flatMap fun q => draw q.2 q.1.2 q.1.1.mass q.1.1.centre

end Halomod.Spec
