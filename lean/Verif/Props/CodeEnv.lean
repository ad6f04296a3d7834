import Verif.Props.Hankel
import Verif.Props.ScaleDep
import Verif.Props.Converge5
import Verif.Props.Outside

/-! # The transforms of the code in the halo model: C54 and C56 -/
namespace Halomod.HaloModel

open Finset Filter Topology Halomod.Tools Halomod.Exclusion

noncomputable section

/-- the transforms that the code calls: `hankel_transform` with the default step (tools.py:47-55), with `h=1e-4` for the two-halo correlations
(halo_model.py:783) and with `h=0.001` back to a spectrum (halo_model.py:817). -/
def codeEnv (isp : Spl) (us : USpl) : Env :=
  { isp := isp, us := us, hankel := hankelAt 0.005 1e-8 1e-8 100 ['r'], hankelFine := hankelAt 1e-4 1e-8 1e-8 100 ['r'], hankelK := hankelAt 0.001 1e-8 1e-8 100 ['k'] }

variable {isp : Spl} {us : USpl} {h : HM}

/-- C54: with the code's transform, the two-halo correlation with scale-dependent bias is that without it times the squared correction wherever the
sum over nodes of the corrected spectrum ends after as many chunks as that of the uncorrected one. -/
theorem C54_code_partial (hs : SplLin isp) (hus : USplOk us) (ho : h.Ok) (hlin : h.linPow (h.k 0) ≠ 0) (junk : Mat) (cls : ExclCls) (s : ℕ → ℝ)
    (hpos : ∀ i < h.nr, s i ≠ 0) (hnr : 0 < h.nr) :
    ∃ f g, h.corr2hTracerX (codeEnv isp us) junk cls (some s) = some f ∧ h.corr2hTracerX (codeEnv isp us) junk cls none = some g ∧
      ∀ i < h.nr, (∀ q, h.power2hPrim (codeEnv isp us) (exclRes (codeEnv isp us) junk cls (h.tracerExclX (codeEnv isp us) none) h.nr)
          (h.biasEffTracer (codeEnv isp us)) false i = some q →
          hStop 1e-4 1e-8 1e-8 (h.rt i) 100 (fun t => s i ^ 2 * q t) = hStop 1e-4 1e-8 1e-8 (h.rt i) 100 q) →
        f (h.rt i) = s i ^ 2 * g (h.rt i) := by
  obtain ⟨f, g, h1, h2, h3⟩ := C54_tracer_partial (E := codeEnv isp us) hs hus ho hlin junk cls s hpos hnr
  exact ⟨f, g, h1, h2, fun i hi hh => h3 i hi fun q hq => (C68_linear_same_nodes ['r'] q q (s i ^ 2)).1 (hh q hq)⟩

/-- C54 finding: but not in general. For every model with exclusion there is a linear power spectrum with which every small enough correction fails to
rescale the two-halo correlation by its square, because of the absolute tolerance of the transform. -/
theorem C54_tolerance_breaks (hs : SplLin isp) (hus : USplOk us) (ho : h.Ok) (junk : Mat) (cls : ExclCls) (i : ℕ) (hi : i < h.nr)
    (hk : ogX 1e-4 300 / h.rt i < h.k 0)
    (hy : h.power2hTab (codeEnv isp us) (exclRes (codeEnv isp us) junk cls (h.tracerExclX (codeEnv isp us) none) h.nr) (h.biasEffTracer (codeEnv isp us)) false i 0 ≠ 0) :
    ∃ lin : ℝ → ℝ, ∃ c0 > 0, ∀ s : ℕ → ℝ, (∀ i < h.nr, s i ≠ 0) → s i ^ 2 < c0 →
      ∃ f g, { h with linPow := lin }.corr2hTracerX (codeEnv isp us) junk cls (some s) = some f ∧
        { h with linPow := lin }.corr2hTracerX (codeEnv isp us) junk cls none = some g ∧ f (h.rt i) ≠ s i ^ 2 * g (h.rt i) := by
  classical
  have hr : 0 < h.rt i := ho.r.pos i hi
  obtain ⟨n, h1, h2, hw⟩ := ogW_second
  obtain ⟨f, -, -, f1, f2⟩ := two_nodes (chunk := 100) (by norm_num) hr (by omega) (by omega) (by norm_num) hw
  set y0 := h.power2hTab (codeEnv isp us) (exclRes (codeEnv isp us) junk cls (h.tracerExclX (codeEnv isp us) none) h.nr) (h.biasEffTracer (codeEnv isp us)) false i 0 with hy0
  set lin : ℝ → ℝ := fun t => if t < h.k 0 then f t / y0 else 1 with hlin
  have hl0 : lin (h.k 0) = 1 := by simp [hlin]
  set h' : HM := { h with linPow := lin } with hh'
  have ho' : h'.Ok := { m := ho.m, k := ho.k, r := ho.r, nm0 := ho.nm0, nk0 := ho.nk0, nr0 := ho.nr0 }
  obtain ⟨q, hq, -⟩ := power2hPrim_ok (E := codeEnv isp us) (h := h') hs ho' (exclRes (codeEnv isp us) junk cls (h'.tracerExclX (codeEnv isp us) none) h'.nr)
    (h'.biasEffTracer (codeEnv isp us)) false i
  have hqf : ∀ t < h.k 0, q t = f t := by
    intro t ht
    have hq' := hq
    unfold HM.power2hPrim at hq'
    have := (mkES_tails (E := codeEnv isp us) hs.toSplOk _ ho'.k ho'.nk0 q hq' (by simp)).1 lin rfl rfl (by change lin (h.k 0) ≠ 0; rw [hl0]; exact one_ne_zero) t ht
    have e1 : q t * lin (h.k 0) = lin t * y0 := this
    rw [hl0, mul_one, hlin] at e1
    simp only [if_pos ht] at e1
    rw [e1, div_mul_cancel₀ _ hy]
  have hsum : ∀ j ≤ 3, hSum 1e-4 (h.rt i) 100 q j = hSum 1e-4 (h.rt i) 100 f j := by
    intro j hj
    unfold hSum
    refine sum_congr rfl fun m hm => ?_
    rw [mem_Ico] at hm
    rw [hqf]
    refine lt_of_le_of_lt ?_ hk
    have : ogX 1e-4 m ≤ ogX 1e-4 300 := (ogX_strictMono (by norm_num)).monotone (by nlinarith)
    gcongr
  obtain ⟨c0, hc0, hb⟩ := breaks_of_sums ['r'] hr q (by rw [hsum 1 (by norm_num), f1]) (by rw [hsum 2 (by norm_num), f2 2 (by norm_num)])
    (by rw [hsum 3 (by norm_num), f2 3 (by norm_num)])
  refine ⟨lin, c0, hc0, fun s hs0 hsc => ?_⟩
  obtain ⟨F, G, e1, e2, e3⟩ := C54_tracer_spectrum (E := codeEnv isp us) hs hus ho' (by change lin (h.k 0) ≠ 0; rw [hl0]; exact one_ne_zero) junk cls s hs0 (by change 0 < h.nr; omega)
  refine ⟨F, G, e1, e2, ?_⟩
  obtain ⟨q', hq', hG, hF⟩ := e3 i hi
  have : q' = q := Option.some.inj (hq'.symm.trans hq)
  subst this
  have := hs0 i hi
  rw [show F (h.rt i) = _ from hF, show G (h.rt i) = _ from hG]
  exact hb (s i ^ 2) (by positivity) hsc

/-- C56: the code's transform depends continuously on the spectrum unless its stopping test is met exactly on its boundary, so this is all that the
convergence of the two-halo correlations (`C56_two_halo_tracer_excl`, `C56_two_halo_matter_excl`) needs beyond the documented integrals. -/
theorem C56_code_transform (P : ℝ → ℝ) (r : ℝ) (hP : NoTie 1e-4 1e-8 1e-8 r 100 P) : HankelContAt (codeEnv isp us).hankelFine P r :=
  fun _ hf => C68_continuous (by norm_num) ['r'] hf hP

/-- C68: the transforms in the model are what the loop returns with the arguments of the calls: the default step to separations, a finer step for the
two-halo correlations, and `h=0.001` back to wavenumbers. -/
theorem C68_code_calls (f : ℝ → ℝ) (r : ℝ) :
    HankelReturns 0.005 1e-8 1e-8 r (fun k => some (f k)) 100 ['r'] (some ((codeEnv isp us).hankel f r)) ∧
    HankelReturns 1e-4 1e-8 1e-8 r (fun k => some (f k)) 100 ['r'] (some ((codeEnv isp us).hankelFine f r)) ∧
    HankelReturns 0.001 1e-8 1e-8 r (fun k => some (f k)) 100 ['k'] (some ((codeEnv isp us).hankelK f r)) :=
  ⟨(C68_value (by norm_num) ⟨['k'], [], rfl⟩ f _).mpr rfl, (C68_value (by norm_num) ⟨['k'], [], rfl⟩ f _).mpr rfl,
    (C68_value (by norm_num) ⟨[], ['r'], rfl⟩ f _).mpr rfl⟩

/-- a model meets the hypotheses of `C54_tolerance_breaks`: the demonstration model on large enough wavenumbers. -/
example (us : USpl) (hus : USplOk us) (junk : Mat) : ∃ h : HM, h.Ok ∧ ∃ lin : ℝ → ℝ, ∃ c0 > 0, ∀ s : ℕ → ℝ, (∀ i < h.nr, s i ≠ 0) → s 0 ^ 2 < c0 →
      ∃ f g, { h with linPow := lin }.corr2hTracerX (codeEnv polySpl us) junk .noExclusion (some s) = some f ∧
        { h with linPow := lin }.corr2hTracerX (codeEnv polySpl us) junk .noExclusion none = some g ∧ f (h.rt 0) ≠ s 0 ^ 2 * g (h.rt 0) := by
  set K := ogX 1e-4 300 + 1 with hK
  have hK0 : 0 < K := by have := ogX_nonneg (h := 1e-4) (by norm_num) 300; linarith
  set h : HM := { demoHM with k := fun j => K * (1 + j) } with hh
  have ho : h.Ok := { m := demo_ok.m, r := demo_ok.r, nm0 := demo_ok.nm0, nk0 := demo_ok.nk0, nr0 := demo_ok.nr0, k := ⟨fun i _ => by simp only [hh]; positivity, fun i j hij _ => by
    simp only [hh]
    have : (i:ℝ) < j := by exact_mod_cast hij
    gcongr⟩ }
  refine ⟨h, ho, C54_tolerance_breaks polySpl_lin hus ho junk .noExclusion 0 ho.nr0 ?_ ?_⟩
  · change ogX 1e-4 300 / (1 + (0:ℕ)) < K * (1 + (0:ℕ))
    rw [Nat.cast_zero, add_zero, div_one, mul_one, hK]
    linarith
  · obtain ⟨f, hf, hv⟩ := C44_tracer_large_scale (E := codeEnv polySpl us) (h := h) polySpl_lin ho demo_cut demo_low 0 (by change 0 < 2; norm_num)
      (fun i _ => by simp [hh, demoHM]) (by exact demo_den.ne')
    obtain ⟨g, hg, hv'⟩ := power2hPrim_ok (E := codeEnv polySpl us) (h := h) polySpl_lin ho (noExclRes (codeEnv polySpl us) (h.tracerExcl (codeEnv polySpl us)) h.bias)
      (h.biasEffTracer (codeEnv polySpl us)) false 0
    have e : f = g := Option.some.inj (hf.symm.trans hg)
    have e2 := hv' 0 ho.nk0
    rw [← e, hv] at e2
    have hb : h.biasEffTracer (codeEnv polySpl us) = demoHM.biasEffTracer demoE := rfl
    have hp : h.phc (h.k 0) = K := by
      change K * (1 + ((0:ℕ):ℝ)) = K
      simp
    have e3 : h.power2hTab (codeEnv polySpl us) (exclRes (codeEnv polySpl us) junk .noExclusion (h.tracerExclX (codeEnv polySpl us) none) h.nr)
        (h.biasEffTracer (codeEnv polySpl us)) false 0 0 = demoHM.biasEffTracer demoE ^ 2 * K := by
      rw [← hb, ← hp, e2]; rfl
    rw [e3]
    have := demo_bias.1
    positivity

end
end Halomod.HaloModel
