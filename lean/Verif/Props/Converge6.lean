import Verif.Lemmas.Tame
import Verif.Props.Converge4

/-! # C56 on the mass grid the package really uses: `10 ** np.arange(Mmin, Mmax, dlog10m)`, as `dlog10m` tends to zero

The grid is made by hmf; its end point `Mmax` is excluded, so the largest mass changes with `dlog10m`. -/
namespace Halomod.HaloModel

open Filter Topology MeasureTheory Halomod.Tools Halomod.HOD Halomod.Exclusion

/-- a halo model with `Mmin = lo`, `Mmax = hi`, `dlog10m = d`, whose mass function, bias, profiles and self-convolution are
functions of mass; everything else as in `h`. -/
noncomputable def mesh (h : HM) (lo hi : ℝ) (D B : ℝ → ℝ) (U T Λ : ℕ → ℝ → ℝ) (d : ℝ) : HM :=
  { h with
    nm := arangeN lo hi d
    m := fun i => (10:ℝ) ^ (lo + i * d)
    dndm := fun i => D ((10:ℝ) ^ (lo + i * d))
    bias := fun i => B ((10:ℝ) ^ (lo + i * d))
    uh := fun j i => U j ((10:ℝ) ^ (lo + i * d))
    ut := fun j i => T j ((10:ℝ) ^ (lo + i * d))
    lamH := some fun j i => Λ j ((10:ℝ) ^ (lo + i * d))
    dlog10m := d }

theorem L10 : 0 < Real.log 10 := Real.log_pos (by norm_num)

theorem ten_pow (x : ℝ) : (10:ℝ) ^ x = Real.exp (x * Real.log 10) := by
  rw [Real.rpow_def_of_pos (by norm_num), mul_comm]

theorem log_ten_pow (x : ℝ) : Real.log ((10:ℝ) ^ x) = x * Real.log 10 := by rw [ten_pow, Real.log_exp]

theorem mesh_exp (lo d : ℝ) (i : ℕ) : (10:ℝ) ^ (lo + i * d) = Real.exp (lo * Real.log 10 + i * (d * Real.log 10)) := by
  rw [ten_pow]; congr 1; ring

theorem mesh_grid (lo : ℝ) {d : ℝ} (hd : 0 < d) (N : ℕ) : Grid N fun i : ℕ => (10:ℝ) ^ (lo + i * d) := by
  refine ⟨fun i _ => by positivity, fun i k hik _ => Real.rpow_lt_rpow_of_exponent_lt (by norm_num) ?_⟩
  have : (i:ℝ) < k := by exact_mod_cast hik
  nlinarith

theorem pow_lt {lo hi : ℝ} (h : lo < hi) : (10:ℝ) ^ lo < (10:ℝ) ^ hi := Real.rpow_lt_rpow_of_exponent_lt (by norm_num) h

theorem pos_eventually : ∀ᶠ d : ℝ in 𝓝[>] (0:ℝ), 0 < d := eventually_mem_nhdsWithin

/-- `spline_integral` in logarithms, from a limit below the end. -/
theorem si_mesh {isp : Spl} (hs : SplLin isp) (hc : SplQuad isp) {lo hi : ℝ} (hlh : lo < hi) (xmin : Option ℝ)
    (hx : ∀ x ∈ xmin, 0 < x ∧ x < (10:ℝ) ^ hi) {f : ℝ → ℝ} (hf : Tame f ((10:ℝ) ^ lo) ((10:ℝ) ^ hi)) :
    Tendsto (fun d : ℝ => splineIntegral isp (arangeN lo hi d) (fun i : ℕ => (10:ℝ) ^ (lo + i * d)) (fun i : ℕ => f ((10:ℝ) ^ (lo + i * d))) xmin none true)
      (𝓝[>] 0) (𝓝 (∫ m in (max ((10:ℝ) ^ lo) (xmin.getD ((10:ℝ) ^ lo)))..(10:ℝ) ^ hi, f m)) := by
  have h0 : (0:ℝ) < (10:ℝ) ^ lo := by positivity
  have h1 := pow_lt hlh
  have hfc := hf.log h0 h1.le
  rw [log_ten_pow, log_ten_pow] at hfc
  have main : ∀ c, (10:ℝ) ^ lo ≤ c → c < (10:ℝ) ^ hi → Tendsto (fun d : ℝ => splineIntegral isp (arangeN lo hi d) (fun i : ℕ => (10:ℝ) ^ (lo + i * d))
      (fun i : ℕ => f ((10:ℝ) ^ (lo + i * d))) (some c) none true) (𝓝[>] 0) (𝓝 (∫ m in c..(10:ℝ) ^ hi, f m)) := by
    intro c hc0 hc1
    have hcp : 0 < c := h0.trans_le hc0
    have key := spl_tame hc (mul_lt_mul_of_pos_right hlh L10) (c := Real.log c)
      ⟨by rw [← log_ten_pow]; exact Real.log_le_log h0 hc0, by rw [← log_ten_pow]; exact Real.log_lt_log hcp hc1⟩ hfc (arange_fills hlh L10)
    rw [← log_ten_pow hi, log_subst f hcp hc1.le] at key
    refine key.congr fun d => ?_
    unfold splineIntegral
    rw [if_pos rfl]
    simp only [mesh_exp, Real.log_exp, Option.elim_none, Option.elim_some]
    congr 1
    funext i
    ring
  have hfst : ∀ d : ℝ, (10:ℝ) ^ (lo + ((0:ℕ):ℝ) * d) = (10:ℝ) ^ lo := by intro d; simp
  cases xmin with
  | none =>
    rw [Option.getD_none, max_self]
    refine (main _ le_rfl h1).congr fun d => ?_
    unfold splineIntegral
    simp only [if_true, Option.elim_none, Option.elim_some, hfst]
  | some x =>
    obtain ⟨hx0, hx1⟩ := hx x rfl
    rw [Option.getD_some]
    rcases le_total ((10:ℝ) ^ lo) x with h | h
    · rw [max_eq_right h]; exact main x h hx1
    · rw [max_eq_left h]
      refine (main _ le_rfl h1).congr' ?_
      filter_upwards [pos_eventually] with d hd
      rw [si_xmin_low hs (mesh_grid lo hd _) _ x hx0 (by rw [hfst]; exact h) _ fun i _ => rfl]
      unfold splineIntegral
      simp only [if_true, Option.elim_none, Option.elim_some, hfst]

theorem cut_ok {hod : Hod} {hi : ℝ} (hcut : hod.sharpCut = true → hod.mmin < hi) :
    ∀ x ∈ (if hod.sharpCut && (hod.central || hod.inherent) then some ((10:ℝ) ^ hod.mmin) else none), 0 < x ∧ x < (10:ℝ) ^ hi := by
  intro v hv
  split_ifs at hv with hb
  · rw [Option.mem_some_iff] at hv
    subst hv
    exact ⟨by positivity, pow_lt (hcut (by rw [Bool.and_eq_true] at hb; exact hb.1))⟩
  · simp at hv

theorem mesh_S (E : Env) (hs : SplLin E.isp) (hc : SplQuad E.isp) (h : HM) {lo hi : ℝ} (hlh : lo < hi)
    (hcut : h.hod.sharpCut = true → h.hod.mmin < hi) (D B : ℝ → ℝ) (U T Λ : ℕ → ℝ → ℝ) (f : ℝ → ℝ)
    (hf : Tame f ((10:ℝ) ^ lo) ((10:ℝ) ^ hi)) :
    Tendsto (fun d => (mesh h lo hi D B U T Λ d).S E (fun i => f ((mesh h lo hi D B U T Λ d).m i)) (mesh h lo hi D B U T Λ d).tracerMmin) (𝓝[>] 0)
      (𝓝 (∫ m in tracerLow h.hod ((10:ℝ) ^ lo)..(10:ℝ) ^ hi, f m)) := by
  rw [tracerLow_eq]
  exact si_mesh hs hc hlh _ (cut_ok hcut) hf

theorem mesh_mean (E : Env) (hs : SplLin E.isp) (hc : SplQuad E.isp) (h : HM) {lo hi : ℝ} (hlh : lo < hi)
    (hcut : h.hod.sharpCut = true → h.hod.mmin < hi) (D B : ℝ → ℝ) (U T Λ : ℕ → ℝ → ℝ)
    (hD : Tame D ((10:ℝ) ^ lo) ((10:ℝ) ^ hi)) (hN : Tame (tracerNumber h.hod) ((10:ℝ) ^ lo) ((10:ℝ) ^ hi)) :
    Tendsto (fun d => (mesh h lo hi D B U T Λ d).meanTracerDen E) (𝓝[>] 0)
      (𝓝 (∫ m in tracerLow h.hod ((10:ℝ) ^ lo)..(10:ℝ) ^ hi, D m * tracerNumber h.hod m)) :=
  mesh_S E hs hc h hlh hcut D B U T Λ (fun m => D m * tracerNumber h.hod m) (hD.mul hN)

/-- C56: as `dlog10m` tends to 0 the mean tracer density, the effective bias, the satellite fraction and the effective mass
converge to the documented integrals over halo mass up to `10 ** Mmax`, although the mass grid stops short of it. -/
theorem C56_mesh_tracer (E : Env) (hs : SplLin E.isp) (hc : SplQuad E.isp) (h : HM) {lo hi : ℝ} (hlh : lo < hi)
    (hcut : h.hod.sharpCut = true → h.hod.mmin < hi) (D B : ℝ → ℝ) (U T Λ : ℕ → ℝ → ℝ)
    (hD : Tame D ((10:ℝ) ^ lo) ((10:ℝ) ^ hi)) (hB : Tame B ((10:ℝ) ^ lo) ((10:ℝ) ^ hi))
    (hN : Tame (tracerNumber h.hod) ((10:ℝ) ^ lo) ((10:ℝ) ^ hi))
    (hS : Tame h.hod.satOcc ((10:ℝ) ^ lo) ((10:ℝ) ^ hi)) :
    Tendsto (fun d => (mesh h lo hi D B U T Λ d).meanTracerDen E) (𝓝[>] 0)
      (𝓝 (∫ m in tracerLow h.hod ((10:ℝ) ^ lo)..(10:ℝ) ^ hi, D m * tracerNumber h.hod m)) ∧
    ((∫ m in tracerLow h.hod ((10:ℝ) ^ lo)..(10:ℝ) ^ hi, D m * tracerNumber h.hod m) ≠ 0 →
      Tendsto (fun d => (mesh h lo hi D B U T Λ d).biasEffTracer E) (𝓝[>] 0)
        (𝓝 ((∫ m in tracerLow h.hod ((10:ℝ) ^ lo)..(10:ℝ) ^ hi, D m * tracerNumber h.hod m * B m) /
          ∫ m in tracerLow h.hod ((10:ℝ) ^ lo)..(10:ℝ) ^ hi, D m * tracerNumber h.hod m)) ∧
      Tendsto (fun d => (mesh h lo hi D B U T Λ d).satFrac E) (𝓝[>] 0)
        (𝓝 ((∫ m in tracerLow h.hod ((10:ℝ) ^ lo)..(10:ℝ) ^ hi, D m * h.hod.satOcc m) /
          ∫ m in tracerLow h.hod ((10:ℝ) ^ lo)..(10:ℝ) ^ hi, D m * tracerNumber h.hod m)) ∧
      ((∫ m in tracerLow h.hod ((10:ℝ) ^ lo)..(10:ℝ) ^ hi, m * D m * tracerNumber h.hod m) ≠ 0 →
        Tendsto (fun d => (10:ℝ) ^ (mesh h lo hi D B U T Λ d).massEff E) (𝓝[>] 0)
          (𝓝 |(∫ m in tracerLow h.hod ((10:ℝ) ^ lo)..(10:ℝ) ^ hi, m * D m * tracerNumber h.hod m) /
            ∫ m in tracerLow h.hod ((10:ℝ) ^ lo)..(10:ℝ) ^ hi, D m * tracerNumber h.hod m|))) := by
  have hgen := mesh_S E hs hc h hlh hcut D B U T Λ
  have hmean := mesh_mean E hs hc h hlh hcut D B U T Λ hD hN
  refine ⟨hmean, fun hne => ⟨?_, ?_, fun hne2 => ?_⟩⟩
  · exact (hgen (fun m => D m * tracerNumber h.hod m * B m) ((hD.mul hN).mul hB)).div hmean hne
  · exact (hgen (fun m => D m * h.hod.satOcc m) (hD.mul hS)).div hmean hne
  · have hr := ((hgen (fun m => m * D m * tracerNumber h.hod m) (((tame_id _ _).mul hD).mul hN)).div hmean hne)
    have hne3 := div_ne_zero hne2 hne
    refine (hr.abs).congr' ?_
    filter_upwards [hr.eventually_ne hne3] with d hn
    unfold HM.massEff HOD.log10 Real.logb
    rw [Real.rpow_def_of_pos (by norm_num : (0:ℝ) < 10), mul_div_cancel₀ _ L10.ne', Real.exp_log_eq_abs]
    · rfl
    · exact hn

/-- C56: as `dlog10m` tends to 0 the effective bias of matter converges to the documented integral. -/
theorem C56_mesh_matter_bias (E : Env) (hs : SplLin E.isp) (hc : SplQuad E.isp) (h : HM) (hu : h.forceUnity = false) {lo hi : ℝ} (hlh : lo < hi)
    (D B : ℝ → ℝ) (U T Λ : ℕ → ℝ → ℝ) (hD : Tame D ((10:ℝ) ^ lo) ((10:ℝ) ^ hi))
    (hB : Tame B ((10:ℝ) ^ lo) ((10:ℝ) ^ hi)) :
    Tendsto (fun d => (mesh h lo hi D B U T Λ d).biasEffMatter E) (𝓝[>] 0) (𝓝 ((∫ m in (10:ℝ) ^ lo..(10:ℝ) ^ hi, m * D m * B m) / h.rhoGtm)) := by
  have key := (si_mesh hs hc hlh none (by simp) (((tame_id _ _).mul hD).mul hB)).div_const h.rhoGtm
  rw [Option.getD_none, max_self] at key
  refine key.congr fun d => ?_
  unfold HM.biasEffMatter
  rw [if_neg (by simp [mesh, hu])]
  rfl

theorem mesh_ok (h : HM) (ho : h.Ok) {lo hi : ℝ} (hlh : lo < hi) (D B : ℝ → ℝ) (U T Λ : ℕ → ℝ → ℝ) {d : ℝ} (hd : 0 < d) :
    (mesh h lo hi D B U T Λ d).Ok :=
  { m := mesh_grid lo hd _, k := ho.k, r := ho.r, nm0 := (arangeN_last hlh hd).1, nk0 := ho.nk0, nr0 := ho.nr0 }

theorem mesh_m0 (h : HM) (lo hi : ℝ) (D B : ℝ → ℝ) (U T Λ : ℕ → ℝ → ℝ) (d : ℝ) : (mesh h lo hi D B U T Λ d).m 0 = (10:ℝ) ^ lo := by
  simp [mesh]

/-- a choice of a value for every positive step. -/
theorem choose_pos {α : Type} [Nonempty α] {p : ℝ → α → Prop} (h : ∀ d > 0, ∃ a, p d a) : ∃ P : ℝ → α, ∀ d > 0, p d (P d) := by
  classical
  choose! P hP using h
  exact ⟨P, hP⟩

/-- C56: for every wavenumber of the grid, as `dlog10m` tends to 0 the one-halo power spectra of matter and of the tracers
converge to the documented integrals over halo mass. -/
theorem C56_mesh_one_halo_power (E : Env) (hs : SplLin E.isp) (hc : SplQuad E.isp) (h : HM) (ho : h.Ok) {lo hi : ℝ} (hlh : lo < hi)
    (D B : ℝ → ℝ) (U T Λ : ℕ → ℝ → ℝ) (hD : Tame D ((10:ℝ) ^ lo) ((10:ℝ) ^ hi))
    (hU : ∀ j, Tame (U j) ((10:ℝ) ^ lo) ((10:ℝ) ^ hi)) (hT : ∀ j, Tame (T j) ((10:ℝ) ^ lo) ((10:ℝ) ^ hi))
    (hN : Tame (tracerNumber h.hod) ((10:ℝ) ^ lo) ((10:ℝ) ^ hi)) (hcs : Tame h.hod.csPairs ((10:ℝ) ^ lo) ((10:ℝ) ^ hi))
    (hss : Tame h.hod.ssPairs ((10:ℝ) ^ lo) ((10:ℝ) ^ hi)) (hcut : h.hod.sharpCut = true → h.hod.mmin < hi)
    (hne : (∫ m in tracerLow h.hod ((10:ℝ) ^ lo)..(10:ℝ) ^ hi, D m * tracerNumber h.hod m) ≠ 0)
    (j : ℕ) (hj : j < h.nk) (hlo : h.oneHaloMmin ((10:ℝ) ^ lo) j < (10:ℝ) ^ hi)
    (hlo2 : 0 < h.oneHaloMmin h.hod.mmin j ∧ h.oneHaloMmin h.hod.mmin j < (10:ℝ) ^ hi) :
    ∃ P Q : ℝ → ℝ → ℝ, (∀ d > 0, (mesh h lo hi D B U T Λ d).power1hMatter E = some (P d)) ∧
      (∀ d > 0, (mesh h lo hi D B U T Λ d).power1hTracer E = some (Q d)) ∧
      Tendsto (fun d => P d (h.k j)) (𝓝[>] 0) (𝓝 ((∫ m in h.oneHaloMmin ((10:ℝ) ^ lo) j..(10:ℝ) ^ hi, D m * m ^ 2 * U j m ^ 2) / h.meanDensity0 ^ 2)) ∧
      Tendsto (fun d => Q d (h.k j)) (𝓝[>] 0) (𝓝 ((∫ m in max ((10:ℝ) ^ lo) (h.oneHaloMmin h.hod.mmin j)..(10:ℝ) ^ hi,
        D m * (2 * h.hod.csPairs m * T j m + h.hod.ssPairs m * T j m ^ 2)) /
          (∫ m in tracerLow h.hod ((10:ℝ) ^ lo)..(10:ℝ) ^ hi, D m * tracerNumber h.hod m) ^ 2)) := by
  have h0 : (0:ℝ) < (10:ℝ) ^ lo := by positivity
  obtain ⟨P, hP⟩ := choose_pos fun d hd => power1hMatter_ok (E := E) hs (mesh_ok h ho hlh D B U T Λ hd)
  choose! Q cs ss hQ using fun (d : ℝ) (hd : 0 < d) => C36_one_halo_power (E := E) hs (mesh_ok h ho hlh D B U T Λ hd)
  refine ⟨P, Q, fun d hd => (hP d hd).1, fun d hd => (hQ d hd).1, ?_, ?_⟩
  · have hmin : (10:ℝ) ^ lo ≤ h.oneHaloMmin ((10:ℝ) ^ lo) j := by
      unfold HM.oneHaloMmin; dsimp only; split_ifs
      · exact le_max_left _ _
      · exact le_rfl
    have key := (si_mesh hs hc hlh (some (h.oneHaloMmin ((10:ℝ) ^ lo) j)) (by
      intro x hx
      rw [Option.mem_some_iff] at hx; subst hx
      exact ⟨h0.trans_le hmin, hlo⟩) ((hD.mul (tame_id _ _).pow_two).mul (hU j).pow_two)).div_const (h.meanDensity0 ^ 2)
    rw [Option.getD_some, max_eq_right hmin] at key
    refine key.congr' ?_
    filter_upwards [pos_eventually] with d hd
    have e := (hP d hd).2 j hj
    have e0 : (mesh h lo hi D B U T Λ d).k j = h.k j := rfl
    rw [← e0, e]
    unfold HM.power1hMatterTab HM.do1halo
    rw [mesh_m0]
    rfl
  · have key := (si_mesh hs hc hlh (some (h.oneHaloMmin h.hod.mmin j)) (by
      intro x hx
      rw [Option.mem_some_iff] at hx; subst hx
      exact hlo2) (hD.mul (((tame_const 2 _ _).mul hcs |>.mul (hT j)).add (hss.mul (hT j).pow_two)))).div
      ((mesh_mean E hs hc h hlh hcut D B U T Λ hD hN).pow 2) (pow_ne_zero 2 hne)
    rw [Option.getD_some] at key
    refine key.congr' ?_
    filter_upwards [pos_eventually] with d hd
    have e := (hQ d hd).2.2.2.2 j hj
    have e0 : (mesh h lo hi D B U T Λ d).k j = h.k j := rfl
    rw [← e0, e]
    rfl

/-- C56: at every tabulated separation, as `dlog10m` tends to 0 the one-halo correlation of matter, for profiles with an
analytic self-convolution, converges to the documented integral over halo mass. -/
theorem C56_mesh_one_halo_corr (E : Env) (hs : SplLin E.isp) (h : HM) (ho : h.Ok) {lo hi : ℝ} (hlh : lo < hi)
    (D B : ℝ → ℝ) (U T Λ : ℕ → ℝ → ℝ) (hD : Tame D ((10:ℝ) ^ lo) ((10:ℝ) ^ hi))
    (hΛ : ∀ j, Tame (Λ j) ((10:ℝ) ^ lo) ((10:ℝ) ^ hi)) (j : ℕ) (hj : j < h.nr) :
    ∃ ξ : ℝ → ℝ → ℝ, (∀ d > 0, (mesh h lo hi D B U T Λ d).corr1hMatter E = some (ξ d)) ∧
      Tendsto (fun d => ξ d (h.rt j)) (𝓝[>] 0) (𝓝 ((∫ m in (10:ℝ) ^ lo..(10:ℝ) ^ hi, D m * m ^ 2 * Λ j m) / h.meanDensity0 ^ 2 - 1)) := by
  have h0 : (0:ℝ) < (10:ℝ) ^ lo := by positivity
  obtain ⟨ξ, hξ⟩ := choose_pos fun d hd => corrES_ok (E := E) hs (mesh_ok h ho hlh D B U T Λ hd) fun i =>
    trapzDx (mesh h lo hi D B U T Λ d).nm (Real.log 10 * (mesh h lo hi D B U T Λ d).dlog10m)
      (fun j => (mesh h lo hi D B U T Λ d).dndm j * (mesh h lo hi D B U T Λ d).m j ^ 3 *
        Λ i ((10:ℝ) ^ (lo + j * d))) / h.meanDensity0 ^ 2 - 1
  refine ⟨ξ, fun d hd => (hξ d hd).1, ?_⟩
  have hcont := ((hD.mul (tame_id _ _).pow_two).mul (hΛ j)).log h0 (pow_lt hlh).le
  rw [log_ten_pow, log_ten_pow] at hcont
  have key := ((rule_tame trapz_rule (mul_lt_mul_of_pos_right hlh L10) hcont (arange_fills hlh L10)).div_const (h.meanDensity0 ^ 2)).sub_const 1
  rw [← log_ten_pow lo, ← log_ten_pow hi, log_subst (fun m => D m * m ^ 2 * Λ j m) h0 (pow_lt hlh).le] at key
  refine key.congr' ?_
  filter_upwards [pos_eventually] with d hd
  have e := (hξ d hd).2 j hj
  have e0 : (mesh h lo hi D B U T Λ d).rt j = h.rt j := rfl
  rw [← e0, e]
  simp only [mesh, Pi.mul_apply, Pi.pow_apply, id, mesh_exp, log_ten_pow]
  rw [mul_comm (Real.log 10) d]
  congr 3
  funext i
  ring

/-- the mass integral of an exclusion object, whatever its rule. -/
theorem excl_mesh {isp : Spl} (hs : SplLin isp) (hc : SplQuad isp) {lo hi : ℝ} (hlh : lo < hi) (x : Option ℝ)
    (hx : ∀ v ∈ x, 0 < v ∧ v < (10:ℝ) ^ hi) (e : ℝ → Excl) (hen : ∀ d, (e d).n = arangeN lo hi d)
    (hem : ∀ d, (e d).m = fun i : ℕ => (10:ℝ) ^ (lo + i * d)) (hex : ∀ d, (e d).xminArg = x)
    {f : ℝ → ℝ} (hf : Tame f ((10:ℝ) ^ lo) ((10:ℝ) ^ hi)) :
    Tendsto (fun d => (e d).splineIntegrate (fun n x y a c => splIntegral isp n x y a c) fun i => f ((e d).m i) * (e d).m i) (𝓝[>] 0)
      (𝓝 (∫ m in (max ((10:ℝ) ^ lo) (x.getD ((10:ℝ) ^ lo)))..(10:ℝ) ^ hi, f m)) := by
  have h0 : (0:ℝ) < (10:ℝ) ^ lo := by positivity
  have h1 := pow_lt hlh
  have hfl := hf.log h0 h1.le
  rw [log_ten_pow, log_ten_pow] at hfl
  have hll := mul_lt_mul_of_pos_right hlh L10
  have em0 : ∀ d, (e d).m 0 = (10:ℝ) ^ lo := fun d => by rw [hem]; simp
  have edl : ∀ d, (e d).dlnx = d * Real.log 10 := by
    intro d
    unfold Excl.dlnx
    rw [hem]; beta_reduce; rw [mesh_exp, mesh_exp, ← Real.exp_sub, Real.log_exp]
    push_cast; ring
  have base : Tendsto (fun d : ℝ => simpsonDx (e d).n (e d).dlnx fun i => f ((e d).m i) * (e d).m i) (𝓝[>] 0) (𝓝 (∫ m in (10:ℝ) ^ lo..(10:ℝ) ^ hi, f m)) := by
    have key := rule_tame simpson_rule hll hfl (arange_fills hlh L10)
    rw [← log_ten_pow lo, ← log_ten_pow hi, log_subst f h0 h1.le] at key
    refine key.congr fun d => ?_
    rw [edl, hen, hem]
    simp only [mesh_exp, log_ten_pow]
  have none_case : (∀ d, (e d).xmin = none) → Tendsto (fun d => (e d).splineIntegrate (fun n x y a c => splIntegral isp n x y a c) fun i => f ((e d).m i) * (e d).m i)
      (𝓝[>] 0) (𝓝 (∫ m in (10:ℝ) ^ lo..(10:ℝ) ^ hi, f m)) := by
    intro h
    refine base.congr fun d => ?_
    unfold Excl.splineIntegrate
    rw [h]
  cases x with
  | none =>
    rw [Option.getD_none, max_self]
    exact none_case fun d => by unfold Excl.xmin; rw [hex]
  | some v =>
    obtain ⟨hv0, hv1⟩ := hx v rfl
    rw [Option.getD_some]
    by_cases hlt : (10:ℝ) ^ lo < v
    · rw [max_eq_right hlt.le]
      have key := spl_tame hc hll (c := Real.log v)
        ⟨by rw [← log_ten_pow]; exact Real.log_le_log h0 hlt.le, by rw [← log_ten_pow]; exact Real.log_lt_log hv0 hv1⟩ hfl (arange_fills hlh L10)
      rw [← log_ten_pow hi, log_subst f hv0 hv1.le] at key
      refine key.congr fun d => ?_
      unfold Excl.splineIntegrate
      have hxm : (e d).xmin = some v := by
        unfold Excl.xmin; rw [hex]; dsimp only; rw [em0, if_pos hlt]
      rw [hxm]
      dsimp only
      rw [hen, hem]
      simp only [mesh_exp, Real.log_exp]
    · rw [max_eq_left (not_lt.1 hlt)]
      refine none_case fun d => ?_
      unfold Excl.xmin; rw [hex]; dsimp only; rw [em0, if_neg hlt]

/-- C56: for every wavenumber of the grid and without halo exclusion, as `dlog10m` tends to 0 the two-halo power spectra of the tracers and of
matter converge to the square of the documented bias-weighted integral over halo mass, times the power of halo centres;
when the matter bias is forced to unity, divided by the square of the same integral without profile. -/
theorem C56_mesh_two_halo_power (E : Env) (hs : SplLin E.isp) (hc : SplQuad E.isp) (h : HM) (ho : h.Ok) {lo hi : ℝ} (hlh : lo < hi)
    (hcut : h.hod.sharpCut = true → h.hod.mmin < hi) (D B : ℝ → ℝ) (U T Λ : ℕ → ℝ → ℝ)
    (hD : Tame D ((10:ℝ) ^ lo) ((10:ℝ) ^ hi)) (hB : Tame B ((10:ℝ) ^ lo) ((10:ℝ) ^ hi))
    (hU : ∀ j, Tame (U j) ((10:ℝ) ^ lo) ((10:ℝ) ^ hi)) (hT : ∀ j, Tame (T j) ((10:ℝ) ^ lo) ((10:ℝ) ^ hi))
    (hN : Tame (tracerNumber h.hod) ((10:ℝ) ^ lo) ((10:ℝ) ^ hi)) (hr : h.rhoGtm ≠ 0)
    (hne : (∫ m in tracerLow h.hod ((10:ℝ) ^ lo)..(10:ℝ) ^ hi, D m * tracerNumber h.hod m) ≠ 0) (hmb : (∫ m in (10:ℝ) ^ lo..(10:ℝ) ^ hi, m * D m * B m) ≠ 0) :
    ∃ P Q : ℝ → ℝ → ℝ, (∀ d > 0, (mesh h lo hi D B U T Λ d).power2hTracer E = some (P d)) ∧
      (∀ d > 0, (mesh h lo hi D B U T Λ d).power2hMatter E = some (Q d)) ∧ ∀ j < h.nk,
      Tendsto (fun d => P d (h.k j)) (𝓝[>] 0) (𝓝 (((∫ m in tracerLow h.hod ((10:ℝ) ^ lo)..(10:ℝ) ^ hi, D m * tracerNumber h.hod m * B m * T j m) /
        ∫ m in tracerLow h.hod ((10:ℝ) ^ lo)..(10:ℝ) ^ hi, D m * tracerNumber h.hod m) ^ 2 * h.phc (h.k j))) ∧
      Tendsto (fun d => Q d (h.k j)) (𝓝[>] 0) (𝓝 (((∫ m in (10:ℝ) ^ lo..(10:ℝ) ^ hi, m * D m * B m * U j m) /
        (if h.forceUnity then ∫ m in (10:ℝ) ^ lo..(10:ℝ) ^ hi, m * D m * B m else h.rhoGtm)) ^ 2 * h.phc (h.k j))) := by
  have hok := fun (d : ℝ) (hd : 0 < d) => mesh_ok h ho hlh D B U T Λ hd
  have hius := ius_ok (E := E) hs
  choose! P hP using fun (d : ℝ) (hd : 0 < d) => power2hPrim_ok (E := E) hs (hok d hd) (noExclRes E ((mesh h lo hi D B U T Λ d).tracerExcl E) (mesh h lo hi D B U T Λ d).bias)
    ((mesh h lo hi D B U T Λ d).biasEffTracer E) false 0
  choose! Q hQ using fun (d : ℝ) (hd : 0 < d) => power2hPrim_ok (E := E) hs (hok d hd) (noExclRes E (mesh h lo hi D B U T Λ d).matterExcl (mesh h lo hi D B U T Λ d).bias)
    ((mesh h lo hi D B U T Λ d).biasEffMatter E) (mesh h lo hi D B U T Λ d).forceUnity 0
  refine ⟨P, Q, fun d hd => (hP d hd).1, fun d hd => (hQ d hd).1, fun j hj => ⟨?_, ?_⟩⟩
  · have key := excl_mesh hs hc hlh (if h.hod.sharpCut && (h.hod.central || h.hod.inherent) then some ((10:ℝ) ^ h.hod.mmin) else none)
      (cut_ok hcut) (fun d => (mesh h lo hi D B U T Λ d).tracerExcl E) (fun d => rfl) (fun d => rfl) (fun d => rfl)
      (((hD.mul hN).mul hB).mul (hT j))
    rw [← tracerLow_eq] at key
    have key2 := ((key.div (mesh_mean E hs hc h hlh hcut D B U T Λ hD hN) hne).pow 2).mul_const (h.phc (h.k j))
    refine key2.congr' ?_
    filter_upwards [pos_eventually] with d hd
    have e0 : (mesh h lo hi D B U T Λ d).k j = h.k j := rfl
    rw [← e0, (hP d hd).2 j hj]
    unfold HM.power2hTab noExclRes noExclIntegrate noExclDensityMod
    simp only [Bool.false_eq_true, if_false, mul_one]
    change _ = _ ^ 2 * h.phc (h.k j)
    congr 2
    rw [Pi.div_apply, div_eq_inv_mul, ← splineIntegrate_smul hius]
    congr 1
    funext i
    simp only [Pi.mul_apply, HM.tracerExcl]
    change _ = D ((mesh h lo hi D B U T Λ d).m i) * tracerNumber h.hod ((mesh h lo hi D B U T Λ d).m i) / _ * T j ((mesh h lo hi D B U T Λ d).m i) *
      B ((mesh h lo hi D B U T Λ d).m i) * _
    ring
  · have key := excl_mesh hs hc hlh none (by simp) (fun d => (mesh h lo hi D B U T Λ d).matterExcl) (fun d => rfl) (fun d => rfl) (fun d => rfl)
      (f := fun m => m * D m * B m * U j m) ((((tame_id _ _).mul hD).mul hB).mul (hU j))
    rw [Option.getD_none, max_self] at key
    have hint : ∀ d, (mesh h lo hi D B U T Λ d).matterExcl.splineIntegrate (fun n x y a c => splIntegral E.isp n x y a c)
        (fun im => (mesh h lo hi D B U T Λ d).matterExcl.pint j im * (mesh h lo hi D B U T Λ d).bias im * (mesh h lo hi D B U T Λ d).matterExcl.m im) =
        ((mesh h lo hi D B U T Λ d).matterExcl.splineIntegrate (fun n x y a c => splIntegral E.isp n x y a c)
        fun i => (fun m => m * D m * B m * U j m) ((mesh h lo hi D B U T Λ d).matterExcl.m i) * (mesh h lo hi D B U T Λ d).matterExcl.m i) / h.rhoGtm := by
      intro d
      rw [div_eq_inv_mul, ← splineIntegrate_smul hius]
      congr 1
      funext i
      simp only [HM.matterExcl, mesh]
      ring
    have e0 : ∀ d, (mesh h lo hi D B U T Λ d).k j = h.k j := fun d => rfl
    have eq : ∀ d > 0, Q d (h.k j) = (((mesh h lo hi D B U T Λ d).matterExcl.splineIntegrate (fun n x y a c => splIntegral E.isp n x y a c)
        fun i => (fun m => m * D m * B m * U j m) ((mesh h lo hi D B U T Λ d).matterExcl.m i) * (mesh h lo hi D B U T Λ d).matterExcl.m i) / h.rhoGtm) ^ 2 *
        (if h.forceUnity then (1 / splineIntegral E.isp (arangeN lo hi d) (mesh h lo hi D B U T Λ d).m
          (fun i => (mesh h lo hi D B U T Λ d).matterExcl.density i * (mesh h lo hi D B U T Λ d).bias i) none none true) ^ 2 else 1) * h.phc (h.k j) := by
      intro d hd
      rw [← e0 d, (hQ d hd).2 j hj, ← hint]
      unfold HM.power2hTab noExclRes noExclIntegrate noExclDensityMod
      rw [show (mesh h lo hi D B U T Λ d).forceUnity = h.forceUnity from rfl]
      by_cases hf : h.forceUnity = true
      · have hb : (mesh h lo hi D B U T Λ d).biasEffMatter E = 1 := by unfold HM.biasEffMatter; rw [if_pos (by exact hf)]
        rw [hf, hb]
        simp only [if_true, mul_one]
        rfl
      · rw [Bool.not_eq_true] at hf
        rw [hf]
        simp only [Bool.false_eq_true, if_false, mul_one]
        rfl
    by_cases hf : h.forceUnity = true
    · have hden := si_mesh hs hc hlh none (by simp) (f := fun m => m * D m * B m * h.rhoGtm⁻¹) ((((tame_id _ _).mul hD).mul hB).mul (tame_const h.rhoGtm⁻¹ _ _))
      rw [Option.getD_none, max_self] at hden
      have hd2 : ∫ m in (10:ℝ) ^ lo..(10:ℝ) ^ hi, m * D m * B m * h.rhoGtm⁻¹ = (∫ m in (10:ℝ) ^ lo..(10:ℝ) ^ hi, m * D m * B m) / h.rhoGtm := by
        rw [div_eq_mul_inv, ← intervalIntegral.integral_mul_const]
      rw [hd2] at hden
      have hne2 : (∫ m in (10:ℝ) ^ lo..(10:ℝ) ^ hi, m * D m * B m) / h.rhoGtm ≠ 0 := div_ne_zero hmb hr
      have key2 := (((key.div_const h.rhoGtm).pow 2).mul (((hden.inv₀ hne2)).pow 2)).mul_const (h.phc (h.k j))
      have elim : ((∫ m in (10:ℝ) ^ lo..(10:ℝ) ^ hi, m * D m * B m * U j m) / (if h.forceUnity then ∫ m in (10:ℝ) ^ lo..(10:ℝ) ^ hi, m * D m * B m else h.rhoGtm)) ^ 2 * h.phc (h.k j) =
          ((∫ m in (10:ℝ) ^ lo..(10:ℝ) ^ hi, m * D m * B m * U j m) / h.rhoGtm) ^ 2 * (((∫ m in (10:ℝ) ^ lo..(10:ℝ) ^ hi, m * D m * B m) / h.rhoGtm)⁻¹) ^ 2 * h.phc (h.k j) := by
        rw [if_pos hf]
        generalize (∫ m in (10:ℝ) ^ lo..(10:ℝ) ^ hi, m * D m * B m * U j m) = A at *
        generalize (∫ m in (10:ℝ) ^ lo..(10:ℝ) ^ hi, m * D m * B m) = C at *
        field_simp
      rw [elim]
      refine key2.congr' ?_
      filter_upwards [pos_eventually] with d hd
      rw [eq d hd, if_pos hf, one_div]
      congr 4
      congr 1
      funext i
      simp only [HM.matterExcl, mesh]
      ring
    · have key2 := ((key.div_const h.rhoGtm).pow 2).mul_const (h.phc (h.k j))
      rw [if_neg hf]
      refine key2.congr' ?_
      filter_upwards [pos_eventually] with d hd
      rw [eq d hd, if_neg hf, mul_one]

/-- C44: at a wavenumber where no halo is resolved the two-halo tracer power tends, as `dlog10m` tends to 0 and for every
HOD — with or without a sharp cut —, to the power of halo centres times the square of `bias_effective_tracer`; and the
two-halo matter power with unit bias to the power of halo centres itself. -/
theorem C44_mesh_large_scale_limit (E : Env) (hs : SplLin E.isp) (hc : SplQuad E.isp) (h : HM) (ho : h.Ok) {lo hi : ℝ} (hlh : lo < hi)
    (hcut : h.hod.sharpCut = true → h.hod.mmin < hi) (D B : ℝ → ℝ) (U T Λ : ℕ → ℝ → ℝ)
    (hD : Tame D ((10:ℝ) ^ lo) ((10:ℝ) ^ hi)) (hB : Tame B ((10:ℝ) ^ lo) ((10:ℝ) ^ hi))
    (hU : ∀ j, Tame (U j) ((10:ℝ) ^ lo) ((10:ℝ) ^ hi)) (hT : ∀ j, Tame (T j) ((10:ℝ) ^ lo) ((10:ℝ) ^ hi))
    (hN : Tame (tracerNumber h.hod) ((10:ℝ) ^ lo) ((10:ℝ) ^ hi)) (hr : h.rhoGtm ≠ 0)
    (hne : (∫ m in tracerLow h.hod ((10:ℝ) ^ lo)..(10:ℝ) ^ hi, D m * tracerNumber h.hod m) ≠ 0) (hmb : (∫ m in (10:ℝ) ^ lo..(10:ℝ) ^ hi, m * D m * B m) ≠ 0) :
    ∃ P Q : ℝ → ℝ → ℝ, (∀ d > 0, (mesh h lo hi D B U T Λ d).power2hTracer E = some (P d)) ∧
      (∀ d > 0, (mesh h lo hi D B U T Λ d).power2hMatter E = some (Q d)) ∧ ∀ j < h.nk,
      ((∀ m ∈ Set.Icc ((10:ℝ) ^ lo) ((10:ℝ) ^ hi), T j m = 1) →
        ∃ b, Tendsto (fun d => (mesh h lo hi D B U T Λ d).biasEffTracer E) (𝓝[>] 0) (𝓝 b) ∧ Tendsto (fun d => P d (h.k j)) (𝓝[>] 0) (𝓝 (b ^ 2 * h.phc (h.k j)))) ∧
      ((∀ m ∈ Set.Icc ((10:ℝ) ^ lo) ((10:ℝ) ^ hi), U j m = 1) →
        ∃ b, Tendsto (fun d => (mesh h lo hi D B U T Λ d).biasEffMatter E) (𝓝[>] 0) (𝓝 b) ∧ (h.forceUnity = true → b = 1) ∧
          Tendsto (fun d => Q d (h.k j)) (𝓝[>] 0) (𝓝 (b ^ 2 * h.phc (h.k j)))) := by
  obtain ⟨P, Q, hP, hQ, hPQ⟩ := C56_mesh_two_halo_power E hs hc h ho hlh hcut D B U T Λ hD hB hU hT hN hr hne hmb
  refine ⟨P, Q, hP, hQ, fun j hj => ⟨fun hu => ?_, fun hu => ?_⟩⟩
  · have hlow : (10:ℝ) ^ lo ≤ tracerLow h.hod ((10:ℝ) ^ lo) ∧ tracerLow h.hod ((10:ℝ) ^ lo) ≤ (10:ℝ) ^ hi := by
      unfold tracerLow
      split_ifs with hb
      · exact ⟨le_max_left _ _, max_le (pow_lt hlh).le (pow_lt (hcut (by rw [Bool.and_eq_true] at hb; exact hb.1))).le⟩
      · exact ⟨le_rfl, (pow_lt hlh).le⟩
    refine ⟨_, (mesh_S E hs hc h hlh hcut D B U T Λ (fun m => D m * tracerNumber h.hod m * B m) ((hD.mul hN).mul hB)).div
      (mesh_mean E hs hc h hlh hcut D B U T Λ hD hN) hne, ?_⟩
    have := (hPQ j hj).1
    rwa [intervalIntegral.integral_congr (g := fun m => D m * tracerNumber h.hod m * B m)] at this
    intro m hm
    rw [Set.uIcc_of_le hlow.2] at hm
    simp only [hu m ⟨hlow.1.trans hm.1, hm.2⟩, mul_one]
  · have key := (hPQ j hj).2
    rw [intervalIntegral.integral_congr (g := fun m => m * D m * B m)] at key
    · by_cases hf : h.forceUnity = true
      · refine ⟨1, tendsto_const_nhds.congr fun d => ?_, fun _ => rfl, ?_⟩
        · unfold HM.biasEffMatter; rw [if_pos (by exact hf)]
        · rwa [if_pos hf, div_self hmb] at key
      · refine ⟨_, C56_mesh_matter_bias E hs hc h (by simpa using hf) hlh D B U T Λ hD hB, fun h' => absurd h' hf, ?_⟩
        rwa [if_neg hf] at key
    · intro m hm
      rw [Set.uIcc_of_le (pow_lt hlh).le] at hm
      simp only [hu m hm, mul_one]

end Halomod.HaloModel
