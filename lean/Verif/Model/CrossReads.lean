import Verif.Model.Framework

/-!
# What the quantities of `CrossCorrelations` and of the WDM classes read

`CrossCorrelations` (`/repo/src/halomod/cross_correlations.py` 173-378) owns two `TracerHaloModel`s declared with hmf's
`@subframework`; its own quantities are cached and read attributes of both.  hmf is external: its documented behaviour is
modelled (trusted base) — a quantity of the owner that reads an attribute of a sub-framework depends on the parameters of the
sub-framework that this attribute depends on.  The whole of owner and sub-models is one graph of attributes.
Simplification: the dictionaries `_halo_model_1_params`, `_halo_model_2_params` (196-204) are only the initial inputs of the
sub-models; assigning these private attributes later is not modelled.

The WDM classes (`/repo/src/halomod/wdm.py` 49-142) add cached quantities to `DMHaloModel` and override two.
-/
namespace Halomod.Framework

/-- which of the two tracer models of a `CrossCorrelations` (cross_correlations.py:214-222). -/
inductive Tracer | one | two
  deriving DecidableEq, Repr

/-- attributes of a `CrossCorrelations` object: those of its two `TracerHaloModel`s, and its own
(cross_correlations.py:206-378). -/
inductive CNode
  | hm (i : Tracer) (x : Node)
  | cross_hod_model | cross_hod_params | cross_hod
  | power_1h_cross_fnc | power_1h_cross | corr_1h_cross_fnc | corr_1h_cross
  | power_2h_cross_fnc | power_2h_cross | corr_2h_cross_fnc | corr_2h_cross
  | power_cross_fnc | power_cross | corr_cross_fnc | corr_cross
  deriving DecidableEq, Repr

/-- declarations: `@parameter` (206-212), `@cached_quantity` (227, 234, 266, 277, 282, 344, 357), uncached properties and
methods (261, 339, 362-378). -/
def CNode.kind : CNode → Kind
  | .hm _ x => x.kind
  | .cross_hod_model | .cross_hod_params => .param
  | .power_1h_cross | .power_2h_cross | .power_cross_fnc | .power_cross | .corr_cross_fnc | .corr_cross => .plain
  | _ => .cached

/-- the attributes each body mentions, cross_correlations.py, lines given per row. -/
def CNode.reads : CNode → List CNode
  -- the tracer models read their own attributes only
  | .hm i x => x.reads.map (CNode.hm i)
  | .cross_hod_model | .cross_hod_params => []
  -- 227-232
  | .cross_hod => [.cross_hod_model, .hm .one .hod, .hm .two .hod, .cross_hod_params]
  -- 234-259
  | .power_1h_cross_fnc => [.cross_hod, .hm .one .m, .hm .one .tracer_profile_ukm, .hm .two .tracer_profile_ukm,
      .hm .one .dndm, .hm .one .mean_tracer_den, .hm .two .mean_tracer_den, .hm .one .k]
  -- 261-264
  | .power_1h_cross => [.power_1h_cross_fnc, .hm .one .k_hm]
  -- 266-275
  | .corr_1h_cross_fnc => [.power_1h_cross_fnc, .hm .one ._r_table]
  -- 277-280
  | .corr_1h_cross => [.corr_1h_cross_fnc, .hm .one .r]
  -- 282-337
  | .power_2h_cross_fnc => [.hm .one .tracer_profile_ukm, .hm .two .tracer_profile_ukm, .hm .one .dndm,
      .hm .two .dndm, .hm .one .halo_bias, .hm .two .halo_bias, .hm .one ._total_occupation,
      .hm .two ._total_occupation, .hm .one .m, .hm .two .m, .hm .one .tracer_mmin, .hm .two .tracer_mmin,
      .hm .one ._power_halo_centres_fnc, .hm .one .k, .hm .one .mean_tracer_den, .hm .two .mean_tracer_den,
      .hm .one .linear_power_fnc]
  -- 339-342
  | .power_2h_cross => [.power_2h_cross_fnc, .hm .one .k_hm]
  -- 344-355
  | .corr_2h_cross_fnc => [.power_2h_cross_fnc, .hm .one ._r_table]
  -- 357-360
  | .corr_2h_cross => [.corr_2h_cross_fnc, .hm .one .r]
  -- 362-364
  | .power_cross_fnc => [.power_1h_cross_fnc, .power_2h_cross_fnc]
  -- 366-369
  | .power_cross => [.power_cross_fnc, .hm .one .k_hm]
  -- 371-373
  | .corr_cross_fnc => [.corr_1h_cross_fnc, .corr_2h_cross_fnc]
  -- 375-378
  | .corr_cross => [.corr_cross_fnc, .hm .one .r]

/-- height of each attribute in the graph of reads. -/
def CNode.rank : CNode → Nat
  | .hm _ x => x.rank
  | .cross_hod_model | .cross_hod_params => 0
  | .cross_hod => 20
  | .power_1h_cross_fnc | .power_2h_cross_fnc => 21
  | .power_1h_cross | .power_2h_cross | .corr_1h_cross_fnc | .corr_2h_cross_fnc | .power_cross_fnc => 22
  | .corr_1h_cross | .corr_2h_cross | .power_cross | .corr_cross_fnc => 23
  | .corr_cross => 24

/-- attributes of the WDM halo models (wdm.py:49-142): those of the base classes, hmf's `wdm` object and
`mean_density`, and the added quantities. -/
inductive WNode
  | base (x : Node)
  | wdm | mean_density | super_halo_concentration
  | f_halos | power_auto_matter_hh | power_auto_matter_sh | power_auto_matter_ss | bias_smooth
  | mean_density_halos | mean_density_smooth
  deriving DecidableEq, Repr

/-- declarations of the WDM classes (decorators at wdm.py:62-132); `power_auto_matter`, an uncached property in the
base class, becomes a cached quantity (67). -/
def WNode.kind : WNode → Kind
  | .base .power_auto_matter => .cached
  | .base x => x.kind
  | _ => .cached

/-- the attributes each body mentions: overridden and added ones in wdm.py, lines given per row. -/
def WNode.reads : WNode → List WNode
  -- 67-74 (overrides the base class)
  | .base .power_auto_matter => [.f_halos, .power_auto_matter_ss, .power_auto_matter_sh, .power_auto_matter_hh]
  -- 124-132 (overrides the base class, whose value it reads)
  | .base .halo_concentration => [.super_halo_concentration, .wdm]
  | .super_halo_concentration => Node.halo_concentration.reads.map .base
  | .base x => x.reads.map .base
  -- inherited from hmf
  | .wdm | .mean_density => [.base .hmfInputs]
  -- 62-65
  | .f_halos => [.base .rho_gtm, .mean_density]
  -- 76-83
  | .power_auto_matter_hh => [.base .power_1h_auto_matter, .base .power_2h_auto_matter, .mean_density, .base .rho_gtm]
  -- 85-92
  | .power_auto_matter_sh => [.base .m, .base .dndm, .base .halo_bias, .base .halo_profile, .base .k_hm, .bias_smooth,
      .base ._power_halo_centres_fnc, .base .rho_gtm]
  -- 94-97
  | .power_auto_matter_ss => [.bias_smooth, .base ._power_halo_centres_fnc, .base .k_hm]
  -- 99-105
  | .bias_smooth => [.f_halos, .base .bias_effective_matter]
  -- 107-110
  | .mean_density_halos => [.base .rho_gtm]
  -- 112-115
  | .mean_density_smooth => [.f_halos, .mean_density]

/-- height of each attribute in the graph of reads. -/
def WNode.rank : WNode → Nat
  | .base .power_auto_matter => 100
  | .base .halo_concentration => 3 * Node.halo_concentration.rank + 1
  | .super_halo_concentration => 3 * Node.halo_concentration.rank
  | .base x => 3 * x.rank + 1
  | .wdm | .mean_density => 2
  | .f_halos => 90
  | .bias_smooth => 91
  | .power_auto_matter_hh | .power_auto_matter_sh | .power_auto_matter_ss | .mean_density_halos
  | .mean_density_smooth => 92

/-- A `CrossCorrelations` object with its two tracer models (cross_correlations.py:173-378): declarations and reads as
above; the values computed are arbitrary functions of what is read. -/
structure IsCross {V : Type} (C : Cls CNode V) : Prop where
  kind : C.kind = CNode.kind
  reads : ∀ a, (C.body a).Within (fun b => b ∈ a.reads)

/-- A WDM halo model (wdm.py:49-142): declarations and reads as above; the values computed are arbitrary functions
of what is read. -/
structure IsWdm {V : Type} (C : Cls WNode V) : Prop where
  kind : C.kind = WNode.kind
  reads : ∀ a, (C.body a).Within (fun b => b ∈ a.reads)

end Halomod.Framework
