import Verif.Model.Sample
import Verif.Spec.Sample
import Verif.Props.Profiles
import Verif.Props.Populate
import Verif.Lemmas.Converge4

/-! # C59: satellites sample the halo profile -/
namespace Halomod.Profiles

open MeasureTheory ProbabilityTheory Halomod.Tools Halomod.Populate Halomod.HaloModel

/-- piecewise-linear interpolation of increasing data is increasing. -/
theorem linSpl_strictMono (n : ℕ) (x y : ℕ → ℝ) (hx : ∀ i j, i < j → j < n → x i < x j) (hy : ∀ i j, i < j → j < n → y i < y j) :
    StrictMonoOn (linSpl n x y) (Set.Icc (x 0) (x (n - 1))) := by
  intro s hs t ht hst
  have hn : 1 < n := by
    by_contra h
    have h2 : n - 1 = 0 := by omega
    rw [h2] at hs ht
    linarith [hs.1, ht.2]
  have hpan : ∀ k, k ≤ n - 1 → s < x k → ∃ j, j + 1 ≤ k ∧ x j ≤ s ∧ s < x (j + 1) := by
    intro k
    induction k with
    | zero => intro _ h; linarith [hs.1]
    | succ k ih =>
      intro hk h
      by_cases h2 : s < x k
      · obtain ⟨j, h3, h4⟩ := ih (by omega) h2
        exact ⟨j, by omega, h4⟩
      · exact ⟨k, le_rfl, not_lt.1 h2, h⟩
  obtain ⟨j, hj, hj1, hj2⟩ := hpan (n - 1) le_rfl (hst.trans_le ht.2)
  unfold linSpl
  rw [if_neg (by omega), if_neg (by omega)]
  have hd : ∀ i ∈ Finset.range (n - 1), 0 < x (i + 1) - x i ∧ 0 < y (i + 1) - y i := by
    intro i hi
    rw [Finset.mem_range] at hi
    exact ⟨sub_pos.2 (hx _ _ (by omega) (by omega)), sub_pos.2 (hy _ _ (by omega) (by omega))⟩
  have hle : ∀ i ∈ Finset.range (n - 1), (y (i + 1) - y i) * min 1 (max 0 ((s - x i) / (x (i + 1) - x i))) ≤
      (y (i + 1) - y i) * min 1 (max 0 ((t - x i) / (x (i + 1) - x i))) := by
    intro i hi
    obtain ⟨h1, h2⟩ := hd i hi
    gcongr
  have hjm : j ∈ Finset.range (n - 1) := Finset.mem_range.2 (by omega)
  obtain ⟨d1, d2⟩ := hd j hjm
  have hlt : (y (j + 1) - y j) * min 1 (max 0 ((s - x j) / (x (j + 1) - x j))) <
      (y (j + 1) - y j) * min 1 (max 0 ((t - x j) / (x (j + 1) - x j))) := by
    refine mul_lt_mul_of_pos_left ?_ d2
    have e1 : 0 ≤ (s - x j) / (x (j + 1) - x j) := div_nonneg (by linarith) d1.le
    have e2 : (s - x j) / (x (j + 1) - x j) < 1 := by rw [div_lt_one d1]; linarith
    have e3 : (s - x j) / (x (j + 1) - x j) < (t - x j) / (x (j + 1) - x j) := by gcongr
    rw [max_eq_right e1, min_eq_right e2.le, max_eq_right (e1.trans e3.le)]
    exact lt_min e2 e3
  have := Finset.sum_lt_sum hle ⟨j, hjm, hlt⟩
  linarith

/-- the tables of `populate`. -/
noncomputable def xTab (cv : ℝ) (i : ℕ) : ℝ := linspace 0 1 1000 i * cv

noncomputable def fTab (s : Shape) (cv : ℝ) (i : ℕ) : ℝ := s.h (xTab cv i) / s.h cv

theorem populateOne_eq (s : Shape) (e : Env) (isp : Spl) (m : ℝ) (c : Option ℝ) (centre : Fin 3 → ℝ) (u : ℝ) (g : Fin 3 → ℝ) :
    s.populateOne e isp m c centre u g = .ok (place (s.rs e m (s.conc e m c))
      (isp 1000 (fTab s (s.conc e m c)) (xTab (s.conc e m c)) u) g centre) := by
  rfl

theorem linspace_unit (i : ℕ) (hi : i < 1000) : linspace 0 1 1000 i = i / 999 := by
  unfold linspace
  split_ifs with h
  · have : i = 999 := by omega
    subst this; norm_num
  · norm_num; ring

theorem h_strict {s : Shape} (hs : s.Exact) (h0 : s.h 0 = 0) {x y : ℝ} (hx : 0 ≤ x) (hxy : x < y) : s.h x < s.h y := by
  rcases hx.eq_or_lt with rfl | hx
  · rw [h0, hs.mass y hxy]; exact massInt_pos hs hxy
  rw [hs.mass x hx, hs.mass y (hx.trans hxy)]
  unfold massInt
  have hi := ((hs.integ x hx).symm.trans (hs.integ y (hx.trans hxy)))
  rw [← intervalIntegral.integral_add_adjacent_intervals (hs.integ x hx) hi]
  have : 0 < ∫ t in x..y, t ^ 2 * s.f t := by
    apply intervalIntegral.intervalIntegral_pos_of_pos_on hi _ hxy
    intro t ht
    have htx : 0 < t := lt_trans hx ht.1
    have := hs.f_pos t htx
    positivity
  linarith

theorem xTab_lt {cv : ℝ} (hc : 0 < cv) {i j : ℕ} (hij : i < j) (hj : j < 1000) : xTab cv i < xTab cv j := by
  unfold xTab
  rw [linspace_unit i (by omega), linspace_unit j hj]
  have : (i:ℝ) < j := by exact_mod_cast hij
  gcongr

theorem xTab_nonneg {cv : ℝ} (hc : 0 < cv) {i : ℕ} (hi : i < 1000) : 0 ≤ xTab cv i := by
  unfold xTab
  rw [linspace_unit i hi]
  positivity

theorem fTab_lt {s : Shape} (hs : s.Exact) (h0 : s.h 0 = 0) {cv : ℝ} (hc : 0 < cv) {i j : ℕ} (hij : i < j) (hj : j < 1000) :
    fTab s cv i < fTab s cv j := by
  have hp : 0 < s.h cv := by have := h_strict hs h0 le_rfl hc; rwa [h0] at this
  exact div_lt_div_of_pos_right (h_strict hs h0 (xTab_nonneg hc (by omega)) (xTab_lt hc hij hj)) hp

theorem fTab_ends {s : Shape} (hs : s.Exact) (h0 : s.h 0 = 0) {cv : ℝ} (hc : 0 < cv) : fTab s cv 0 = 0 ∧ fTab s cv 999 = 1 := by
  have hp : 0 < s.h cv := by have := h_strict hs h0 le_rfl hc; rwa [h0] at this
  unfold fTab xTab
  rw [linspace_unit 0 (by norm_num), linspace_unit 999 (by norm_num)]
  norm_num
  exact ⟨Or.inl h0, hp.ne'⟩

/-! ### the random numbers -/

theorem draws_ae : ∀ᵐ p ∂Spec.draws, p.1 ∈ Set.Ioc (0:ℝ) 1 ∧ p.2 ≠ 0 := by
  have h1 : ∀ᵐ u ∂(volume.restrict (Set.Icc (0:ℝ) 1)), u ∈ Set.Ioc (0:ℝ) 1 := by
    rw [← MeasureTheory.restrict_Ioc_eq_restrict_Icc]
    exact ae_restrict_mem measurableSet_Ioc
  have : NullSingletonClass (gaussianReal 0 1) := nullSingletonClass_gaussianReal one_ne_zero
  have h2 : ∀ᵐ g ∂(Measure.pi fun _ : Fin 3 => gaussianReal 0 1), g ≠ 0 := by
    have : NullSingletonClass (Measure.pi fun _ : Fin 3 => gaussianReal 0 1) := Measure.pi_nullSingletonClass 0
    rw [ae_iff]
    simp
  exact (Measure.quasiMeasurePreserving_fst.ae h1).and (Measure.quasiMeasurePreserving_snd.ae h2)

theorem draws_fst (T : Set ℝ) : Spec.draws {p | p.1 ∈ T} = volume.restrict (Set.Icc (0:ℝ) 1) T := by
  have : {p : ℝ × (Fin 3 → ℝ) | p.1 ∈ T} = T ×ˢ Set.univ := by ext p; simp
  rw [this, Spec.draws, Measure.prod_prod]
  simp

theorem draws_le {a : ℝ} (h1 : a ≤ 1) : Spec.draws {p | p.1 ≤ a} = ENNReal.ofReal a := by
  rw [show {p : ℝ × (Fin 3 → ℝ) | p.1 ≤ a} = {p | p.1 ∈ Set.Iic a} from rfl, draws_fst, Measure.restrict_apply measurableSet_Iic]
  rw [show Set.Iic a ∩ Set.Icc (0:ℝ) 1 = Set.Icc 0 a by
    ext t; simp only [Set.mem_inter_iff, Set.mem_Iic, Set.mem_Icc]; constructor
    · rintro ⟨h2, h3, -⟩; exact ⟨h3, h2⟩
    · rintro ⟨h2, h3⟩; exact ⟨h3, h2, by linarith⟩]
  simp

/-- what `populate` needs of the external spline on its own table: that the interpolated inverse of the cumulative distribution
increases.  (Cubic splines need not preserve monotonicity.) -/
def Shape.InverseIncreasing (s : Shape) (e : Env) (isp : Spl) (m : ℝ) (c : Option ℝ) : Prop :=
  StrictMonoOn (isp 1000 (fun i : ℕ => val (s.cdf e (i / 999 * e.massToRadius m) c (some m))) (fun i : ℕ => i / 999 * s.conc e m c)) (Set.Icc 0 1)

theorem sample_core {s : Shape} (hs : s.Exact) (h0 : s.h 0 = 0) {e : Env} (he : e.Good) (hb : e.etaBloat = 0) {m : ℝ} (hm : 0 < m)
    {c : Option ℝ} (hc : ∀ v, c = some v → 0 < v) {isp : Spl} (hi : SplOk isp) (hinc : s.InverseIncreasing e isp m c) :
    ∃ w : ℝ → ℝ, (∀ centre u g, s.populateOne e isp m c centre u g = .ok (place (e.massToRadius m / s.conc e m c) (w u) g centre)) ∧
      StrictMonoOn w (Set.Icc 0 1) ∧ w 0 = 0 ∧ w 1 = s.conc e m c ∧
      ∀ i : ℕ, i < 1000 → ∃ q : ℝ, q ∈ Set.Icc 0 1 ∧ q = enclosed (fun r => val (s.rho e r m .m c)) (i / 999 * e.massToRadius m) ∧
        w q = i / 999 * s.conc e m c := by
  have hcp := conc_pos hs he hm hc
  have hR := (C23_overdensity he false hm).1
  set cv := s.conc e m c with hcv
  have hF : ∀ i : ℕ, i < 1000 → val (s.cdf e (i / 999 * e.massToRadius m) c (some m)) = fTab s cv i := by
    intro i hi
    have : s.cdf e (i / 999 * e.massToRadius m) c (some m) = .ok (s.h (i / 999 * e.massToRadius m / s.rs e m cv) / s.h cv) := rfl
    rw [this, rs_eq hs hb]
    unfold fTab xTab
    rw [linspace_unit i hi]
    change s.h _ / _ = _
    congr 2
    field_simp
  have hX : ∀ i : ℕ, i < 1000 → (i:ℝ) / 999 * cv = xTab cv i := by
    intro i hi; unfold xTab; rw [linspace_unit i hi]
  have hcongr : isp 1000 (fTab s cv) (xTab cv) = isp 1000 (fun i : ℕ => val (s.cdf e (i / 999 * e.massToRadius m) c (some m))) (fun i : ℕ => i / 999 * cv) :=
    hi.congr _ _ _ _ _ fun i h => ⟨(hF i h).symm, (hX i h).symm⟩
  have hnode : ∀ i : ℕ, i < 1000 → isp 1000 (fTab s cv) (xTab cv) (fTab s cv i) = xTab cv i :=
    hi.interp _ _ _ fun i j hij hj => fTab_lt hs h0 hcp hij hj
  have hends := fTab_ends hs h0 hcp
  refine ⟨isp 1000 (fTab s cv) (xTab cv), fun centre u g => ?_, ?_, ?_, ?_, fun i h => ⟨fTab s cv i, ⟨?_, ?_⟩, ?_, ?_⟩⟩
  · rw [populateOne_eq, rs_eq hs hb]
  · rw [hcongr]; exact hinc
  · have := hnode 0 (by norm_num)
    rw [hends.1] at this
    rw [this, ← hX 0 (by norm_num)]; simp
  · have := hnode 999 (by norm_num)
    rw [hends.2] at this
    rw [this, ← hX 999 (by norm_num)]; norm_num
  · rcases Nat.eq_zero_or_pos i with rfl | hp
    · exact hends.1.ge
    · rw [← hends.1]; exact (fTab_lt hs h0 hcp hp h).le
  · rcases Nat.lt_or_ge i 999 with hp | hp
    · rw [← hends.2]; exact (fTab_lt hs h0 hcp hp (by norm_num)).le
    · rw [show i = 999 by omega]; exact hends.2.le
  · rcases Nat.eq_zero_or_pos i with rfl | hp
    · rw [hends.1]; simp [enclosed]
    · have hip : (0:ℝ) < i := by exact_mod_cast hp
      have hi9 : (i:ℝ) ≤ 999 := by exact_mod_cast Nat.le_of_lt_succ h
      have key := C27_cdf_enclosed hs he hb hm hc (r := i / 999 * e.massToRadius m) (by positivity) (by
        have : (i:ℝ) / 999 ≤ 1 := by rw [div_le_one (by norm_num)]; exact hi9
        nlinarith)
      rw [← hF i h, key]
      rfl
  · rw [hnode i h, hX i h]

/-- C59: the satellites sample the density profile: the probability that a satellite lies within radius `i/999` of the halo
radius, for every radius of the table, is exactly the fraction of the halo's mass (density `rho`) within that radius; and the
probability to lie within any radius between two of the table is between those two fractions. -/
theorem C59_radial {s : Shape} (hs : s.Exact) (h0 : s.h 0 = 0) {e : Env} (he : e.Good) (hb : e.etaBloat = 0) {m : ℝ} (hm : 0 < m)
    {c : Option ℝ} (hc : ∀ v, c = some v → 0 < v) {isp : Spl} (hi : SplOk isp) (hinc : s.InverseIncreasing e isp m c) (centre : Fin 3 → ℝ) :
    ∃ pos : ℝ × (Fin 3 → ℝ) → Fin 3 → ℝ, (∀ u g, s.populateOne e isp m c centre u g = .ok (pos (u, g))) ∧
      (∀ i : ℕ, i < 1000 → Spec.draws {p | dist3 (pos p) centre ≤ i / 999 * e.massToRadius m} =
        ENNReal.ofReal (enclosed (fun r => val (s.rho e r m .m c)) (i / 999 * e.massToRadius m))) ∧
      (∀ᵐ p ∂Spec.draws, 0 < dist3 (pos p) centre ∧ dist3 (pos p) centre ≤ e.massToRadius m) ∧
      ∀ i : ℕ, i < 999 → ∀ r : ℝ, i / 999 * e.massToRadius m ≤ r → r ≤ ((i + 1 : ℕ) : ℝ) / 999 * e.massToRadius m →
        ENNReal.ofReal (enclosed (fun r => val (s.rho e r m .m c)) (i / 999 * e.massToRadius m)) ≤ Spec.draws {p | dist3 (pos p) centre ≤ r} ∧
        Spec.draws {p | dist3 (pos p) centre ≤ r} ≤
          ENNReal.ofReal (enclosed (fun r => val (s.rho e r m .m c)) (((i + 1 : ℕ) : ℝ) / 999 * e.massToRadius m)) := by
  have hcp := conc_pos hs he hm hc
  have hR := (C23_overdensity he false hm).1
  obtain ⟨w, hw, hmono, hw0, hw1, hq⟩ := sample_core hs h0 he hb hm hc hi hinc
  set rs := e.massToRadius m / s.conc e m c with hrs
  have hrs0 : 0 < rs := by positivity
  have hdist : ∀ p : ℝ × (Fin 3 → ℝ), p.1 ∈ Set.Ioc (0:ℝ) 1 ∧ p.2 ≠ 0 → dist3 (place rs (w p.1) p.2 centre) centre = rs * w p.1 ∧ 0 < w p.1 := by
    intro p hp
    have : 0 < w p.1 := by
      rw [← hw0]
      exact hmono ⟨le_rfl, zero_le_one⟩ ⟨hp.1.1.le, hp.1.2⟩ hp.1.1
    exact ⟨by rw [(C09_distance rs (w p.1) p.2 centre hp.2).1, abs_of_pos (by positivity)], this⟩
  have hnode : ∀ i : ℕ, i < 1000 → Spec.draws {p | dist3 (place rs (w p.1) p.2 centre) centre ≤ i / 999 * e.massToRadius m} =
        ENNReal.ofReal (enclosed (fun r => val (s.rho e r m .m c)) (i / 999 * e.massToRadius m)) := by
    intro i h
    obtain ⟨q, hq1, hq2, hq3⟩ := hq i h
    rw [← hq2, ← draws_le hq1.2]
    refine measure_congr ?_
    filter_upwards [draws_ae] with p hp
    refine propext ?_
    change dist3 (place rs (w p.1) p.2 centre) centre ≤ _ ↔ p.1 ≤ q
    rw [(hdist p hp).1, ← hmono.le_iff_le ⟨hp.1.1.le, hp.1.2⟩ hq1, hq3]
    have : (i:ℝ) / 999 * e.massToRadius m = rs * (i / 999 * s.conc e m c) := by rw [hrs]; field_simp
    rw [this]
    exact mul_le_mul_iff_right₀ hrs0
  refine ⟨fun p => place rs (w p.1) p.2 centre, fun u g => hw centre u g, hnode, ?_, fun i h r hr1 hr2 => ⟨?_, ?_⟩⟩
  · filter_upwards [draws_ae] with p hp
    obtain ⟨d1, d2⟩ := hdist p hp
    refine ⟨by rw [d1]; positivity, ?_⟩
    rw [d1]
    have : w p.1 ≤ s.conc e m c := by
      rw [← hw1]
      exact (hmono.le_iff_le ⟨hp.1.1.le, hp.1.2⟩ ⟨zero_le_one, le_rfl⟩).2 hp.1.2
    calc rs * w p.1 ≤ rs * s.conc e m c := by gcongr
      _ = e.massToRadius m := by rw [hrs]; field_simp
  · rw [← hnode i (by omega)]
    exact measure_mono fun p hp => le_trans hp hr1
  · rw [← hnode (i + 1) (by omega)]
    exact measure_mono fun p hp => le_trans hp hr2

/-! ### directions -/

theorem norm_rot {Q : Matrix (Fin 3) (Fin 3) ℝ} (hQ : Q ∈ Matrix.orthogonalGroup (Fin 3) ℝ) (g : Fin 3 → ℝ) :
    ∑ i, (Q.mulVec g) i ^ 2 = ∑ i, g i ^ 2 := by
  have h1 : ∀ v : Fin 3 → ℝ, ∑ i, v i ^ 2 = v ⬝ᵥ v := fun v => by simp [dotProduct, sq]
  rw [h1, h1, Matrix.dotProduct_mulVec, Matrix.vecMul_mulVec, (Matrix.mem_orthogonalGroup_iff' (Fin 3) ℝ).1 hQ, Matrix.vecMul_one]

theorem place_rot {Q : Matrix (Fin 3) (Fin 3) ℝ} (hQ : Q ∈ Matrix.orthogonalGroup (Fin 3) ℝ) (rs x : ℝ) (g centre : Fin 3 → ℝ) :
    Q.mulVec (place rs x g centre - centre) = place rs x (Q.mulVec g) centre - centre := by
  have e : ∀ v, place rs x v centre - centre = (rs * x / Real.sqrt (∑ i, v i ^ 2)) • v := by
    intro v; funext j; simp [place]; ring
  rw [e, e, norm_rot hQ, Matrix.mulVec_smul]

/-- three independent standard normals have no preferred direction. -/
theorem gauss_rot {Q : Matrix (Fin 3) (Fin 3) ℝ} (hQ : Q ∈ Matrix.orthogonalGroup (Fin 3) ℝ) :
    (Measure.pi fun _ : Fin 3 => gaussianReal 0 1).map Q.mulVec = Measure.pi fun _ : Fin 3 => gaussianReal 0 1 := by
  set μ := Measure.pi fun _ : Fin 3 => gaussianReal 0 1
  let L : EuclideanSpace ℝ (Fin 3) →ₗᵢ[ℝ] EuclideanSpace ℝ (Fin 3) := ⟨Matrix.toEuclideanLin Q, fun v => by
    rw [EuclideanSpace.norm_eq, EuclideanSpace.norm_eq]
    congr 1
    simpa using norm_rot hQ v.ofLp⟩
  have hstd := map_pi_eq_stdGaussian (ι := Fin 3)
  have hQm : Measurable Q.mulVec := by
    have : Continuous fun v : Fin 3 → ℝ => Q.mulVec v := by fun_prop
    exact this.measurable
  have e1 : (μ.map Q.mulVec).map (WithLp.toLp 2) = μ.map (WithLp.toLp 2) := by
    rw [Measure.map_map (by fun_prop) hQm, hstd]
    have : (WithLp.toLp 2 ∘ Q.mulVec : (Fin 3 → ℝ) → EuclideanSpace ℝ (Fin 3)) = (L.toLinearIsometryEquiv rfl) ∘ WithLp.toLp 2 := by
      funext v; rfl
    rw [this, ← Measure.map_map (by fun_prop) (by fun_prop), hstd, stdGaussian_map]
  have e2 := congrArg (fun ν => ν.map (WithLp.ofLp : EuclideanSpace ℝ (Fin 3) → Fin 3 → ℝ)) e1
  have hid : ∀ ν : Measure (Fin 3 → ℝ), (ν.map (WithLp.toLp 2)).map (WithLp.ofLp : EuclideanSpace ℝ (Fin 3) → Fin 3 → ℝ) = ν := by
    intro ν
    rw [Measure.map_map (by fun_prop) (by fun_prop)]
    exact Measure.map_id
  simp only [hid] at e2
  exact e2

/-- rotating (or reflecting) the normals leaves the law of all draws unchanged. -/
theorem draws_rot {Q : Matrix (Fin 3) (Fin 3) ℝ} (hQ : Q ∈ Matrix.orthogonalGroup (Fin 3) ℝ) (A : Set (ℝ × (Fin 3 → ℝ))) :
    Spec.draws {p | (p.1, Q.mulVec p.2) ∈ A} = Spec.draws A := by
  have hm : ∀ P : Matrix (Fin 3) (Fin 3) ℝ, Measurable P.mulVec := fun P => by
    have : Continuous fun v : Fin 3 → ℝ => P.mulVec v := by fun_prop
    exact this.measurable
  have h1 := (Matrix.mem_orthogonalGroup_iff (Fin 3) ℝ).1 hQ
  have h2 := (Matrix.mem_orthogonalGroup_iff' (Fin 3) ℝ).1 hQ
  let E : (Fin 3 → ℝ) ≃ᵐ (Fin 3 → ℝ) :=
    { toFun := Q.mulVec, invFun := Q.transpose.mulVec, left_inv := fun v => by rw [Matrix.mulVec_mulVec, h2, Matrix.one_mulVec],
      right_inv := fun v => by rw [Matrix.mulVec_mulVec, h1, Matrix.one_mulVec],
      measurable_toFun := hm Q, measurable_invFun := hm Q.transpose }
  let G : (ℝ × (Fin 3 → ℝ)) ≃ᵐ (ℝ × (Fin 3 → ℝ)) := (MeasurableEquiv.refl ℝ).prodCongr E
  have hp : MeasurePreserving G Spec.draws Spec.draws := by
    have : MeasurePreserving E (Measure.pi fun _ : Fin 3 => gaussianReal 0 1) (Measure.pi fun _ : Fin 3 => gaussianReal 0 1) := ⟨hm Q, gauss_rot hQ⟩
    exact (MeasurePreserving.id _).prod this
  exact hp.measure_preimage_equiv A

/-- C59: no direction is preferred: seen from the centre of the halo, the law of a satellite's position is unchanged by every
rotation and reflection. -/
theorem C59_isotropic (s : Shape) (e : Env) (isp : Spl) (m : ℝ) (c : Option ℝ) (centre : Fin 3 → ℝ) :
    ∃ pos : ℝ × (Fin 3 → ℝ) → Fin 3 → ℝ, (∀ u g, s.populateOne e isp m c centre u g = .ok (pos (u, g))) ∧
      ∀ Q ∈ Matrix.orthogonalGroup (Fin 3) ℝ, ∀ S : Set (Fin 3 → ℝ),
        Spec.draws {p | Q.mulVec (pos p - centre) ∈ S} = Spec.draws {p | pos p - centre ∈ S} := by
  refine ⟨fun p => place (s.rs e m (s.conc e m c)) (isp 1000 (fTab s (s.conc e m c)) (xTab (s.conc e m c)) p.1) p.2 centre,
    fun u g => populateOne_eq s e isp m c centre u g, fun Q hQ S => ?_⟩
  rw [← draws_rot hQ {p | place (s.rs e m (s.conc e m c)) (isp 1000 (fTab s (s.conc e m c)) (xTab (s.conc e m c)) p.1) p.2 centre - centre ∈ S}]
  congr 1
  ext p
  simp only [Set.mem_ofPred_eq, place_rot hQ]

/-- C59: how far a satellite is from the centre says nothing about its direction: for every radius and every cone of directions
the probability of both is the product. -/
theorem C59_independent {s : Shape} (hs : s.Exact) (h0 : s.h 0 = 0) {e : Env} (he : e.Good) (hb : e.etaBloat = 0) {m : ℝ} (hm : 0 < m)
    {c : Option ℝ} (hc : ∀ v, c = some v → 0 < v) {isp : Spl} (hi : SplOk isp) (hinc : s.InverseIncreasing e isp m c) (centre : Fin 3 → ℝ) :
    ∃ pos : ℝ × (Fin 3 → ℝ) → Fin 3 → ℝ, (∀ u g, s.populateOne e isp m c centre u g = .ok (pos (u, g))) ∧
      ∀ (T : Set ℝ) (S : Set (Fin 3 → ℝ)), (∀ v ∈ S, ∀ t : ℝ, 0 < t → t • v ∈ S) →
        Spec.draws {p | dist3 (pos p) centre ∈ T ∧ pos p - centre ∈ S} =
          Spec.draws {p | dist3 (pos p) centre ∈ T} * Spec.draws {p | pos p - centre ∈ S} := by
  have hcp := conc_pos hs he hm hc
  have hR := (C23_overdensity he false hm).1
  obtain ⟨w, hw, hmono, hw0, -, -⟩ := sample_core hs h0 he hb hm hc hi hinc
  set rs := e.massToRadius m / s.conc e m c with hrs
  have hrs0 : 0 < rs := by positivity
  refine ⟨fun p => place rs (w p.1) p.2 centre, fun u g => hw centre u g, fun T S hS => ?_⟩
  have key : ∀ p : ℝ × (Fin 3 → ℝ), p.1 ∈ Set.Ioc (0:ℝ) 1 ∧ p.2 ≠ 0 →
      (dist3 (place rs (w p.1) p.2 centre) centre ∈ T ↔ rs * w p.1 ∈ T) ∧ (place rs (w p.1) p.2 centre - centre ∈ S ↔ p.2 ∈ S) := by
    intro p hp
    have hwp : 0 < w p.1 := by
      rw [← hw0]
      exact hmono ⟨le_rfl, zero_le_one⟩ ⟨hp.1.1.le, hp.1.2⟩ hp.1.1
    have hd : dist3 (place rs (w p.1) p.2 centre) centre = rs * w p.1 := by
      rw [(C09_distance rs (w p.1) p.2 centre hp.2).1, abs_of_pos (by positivity)]
    refine ⟨by rw [hd], ?_⟩
    have hn : 0 < Real.sqrt (∑ i, p.2 i ^ 2) := by
      obtain ⟨i, hi⟩ := Function.ne_iff.mp hp.2
      have : p.2 i ≠ 0 := hi
      exact Real.sqrt_pos.2 (Finset.sum_pos' (fun j _ => sq_nonneg _) ⟨i, Finset.mem_univ _, by positivity⟩)
    have ht : 0 < rs * w p.1 / Real.sqrt (∑ i, p.2 i ^ 2) := by positivity
    have e1 : place rs (w p.1) p.2 centre - centre = (rs * w p.1 / Real.sqrt (∑ i, p.2 i ^ 2)) • p.2 := by
      funext j; simp [place]; ring
    rw [e1]
    refine ⟨fun h => ?_, fun h => hS _ h _ ht⟩
    have := hS _ h _ (inv_pos.2 ht)
    rwa [smul_smul, inv_mul_cancel₀ ht.ne', one_smul] at this
  have c1 : Spec.draws {p | dist3 (place rs (w p.1) p.2 centre) centre ∈ T ∧ place rs (w p.1) p.2 centre - centre ∈ S} =
      Spec.draws ({u | rs * w u ∈ T} ×ˢ S) := by
    refine measure_congr ?_
    filter_upwards [draws_ae] with p hp
    exact propext (and_congr (key p hp).1 (key p hp).2)
  have c2 : Spec.draws {p | dist3 (place rs (w p.1) p.2 centre) centre ∈ T} = Spec.draws ({u | rs * w u ∈ T} ×ˢ Set.univ) := by
    refine measure_congr ?_
    filter_upwards [draws_ae] with p hp
    exact propext ((key p hp).1.trans ⟨fun h => ⟨h, trivial⟩, fun h => h.1⟩)
  have c3 : Spec.draws {p | place rs (w p.1) p.2 centre - centre ∈ S} = Spec.draws (Set.univ ×ˢ S) := by
    refine measure_congr ?_
    filter_upwards [draws_ae] with p hp
    exact propext ((key p hp).2.trans ⟨fun h => ⟨trivial, h⟩, fun h => h.2⟩)
  rw [c1, c2, c3]
  unfold Spec.draws
  rw [Measure.prod_prod, Measure.prod_prod, Measure.prod_prod]
  simp

/-- C59: of `n` satellites of a halo the expected number within radius `i/999` of the halo radius is `n` times the fraction of the
mass there. -/
theorem C59_expected_number {s : Shape} (hs : s.Exact) (h0 : s.h 0 = 0) {e : Env} (he : e.Good) (hb : e.etaBloat = 0) {m : ℝ} (hm : 0 < m)
    {c : Option ℝ} (hc : ∀ v, c = some v → 0 < v) {isp : Spl} (hi : SplOk isp) (hinc : s.InverseIncreasing e isp m c) (centre : Fin 3 → ℝ) :
    ∃ pos : ℝ × (Fin 3 → ℝ) → Fin 3 → ℝ, (∀ u g, s.populateOne e isp m c centre u g = .ok (pos (u, g))) ∧
      ∀ (n : ℕ) (i : ℕ), i < 1000 → open Classical in
        ∫ ω : Fin n → ℝ × (Fin 3 → ℝ), ((Finset.univ.filter fun k => dist3 (pos (ω k)) centre ≤ i / 999 * e.massToRadius m).card : ℝ)
            ∂(Measure.pi fun _ => Spec.draws) =
          n * enclosed (fun r => val (s.rho e r m .m c)) (i / 999 * e.massToRadius m) := by
  classical
  have hcp := conc_pos hs he hm hc
  have hR := (C23_overdensity he false hm).1
  obtain ⟨w, hw, hmono, hw0, hw1, hq⟩ := sample_core hs h0 he hb hm hc hi hinc
  set rs := e.massToRadius m / s.conc e m c with hrs
  have hrs0 : 0 < rs := by positivity
  refine ⟨fun p => place rs (w p.1) p.2 centre, fun u g => hw centre u g, fun n i h => ?_⟩
  obtain ⟨q, hq1, hq2, hq3⟩ := hq i h
  set f : ℝ × (Fin 3 → ℝ) → ℝ := {p | dist3 (place rs (w p.1) p.2 centre) centre ≤ i / 999 * e.massToRadius m}.indicator fun _ => 1 with hf
  set B : Set (ℝ × (Fin 3 → ℝ)) := {p | p.1 ≤ q} with hB
  have hBm : MeasurableSet B := measurableSet_le measurable_fst measurable_const
  have hae : f =ᵐ[Spec.draws] B.indicator fun _ => 1 := by
    filter_upwards [draws_ae] with p hp
    have hwp : 0 < w p.1 := by
      rw [← hw0]
      exact hmono ⟨le_rfl, zero_le_one⟩ ⟨hp.1.1.le, hp.1.2⟩ hp.1.1
    have hd : dist3 (place rs (w p.1) p.2 centre) centre = rs * w p.1 := by
      rw [(C09_distance rs (w p.1) p.2 centre hp.2).1, abs_of_pos (by positivity)]
    have : dist3 (place rs (w p.1) p.2 centre) centre ≤ i / 999 * e.massToRadius m ↔ p.1 ≤ q := by
      rw [hd, ← hmono.le_iff_le ⟨hp.1.1.le, hp.1.2⟩ hq1, hq3]
      have e2 : (i:ℝ) / 999 * e.massToRadius m = rs * (i / 999 * s.conc e m c) := by rw [hrs]; field_simp
      rw [e2]
      exact mul_le_mul_iff_right₀ hrs0
    simp only [hf, hB, Set.indicator, Set.mem_ofPred_eq, this]
  have hint : Integrable f Spec.draws :=
    ((integrable_const (1:ℝ)).indicator hBm).congr hae.symm
  have hval : ∫ p, f p ∂Spec.draws = q := by
    rw [integral_congr_ae hae, integral_indicator hBm]
    simp only [integral_const, smul_eq_mul, mul_one, Measure.real, Measure.restrict_apply_univ]
    rw [hB, draws_le hq1.2, ENNReal.toReal_ofReal hq1.1]
  have hev : ∀ k : Fin n, MeasurePreserving (Function.eval k) (Measure.pi fun _ : Fin n => Spec.draws) Spec.draws :=
    fun k => measurePreserving_eval _ k
  have hcard : ∀ ω : Fin n → ℝ × (Fin 3 → ℝ),
      ((Finset.univ.filter fun k => dist3 (place rs (w (ω k).1) (ω k).2 centre) centre ≤ i / 999 * e.massToRadius m).card : ℝ) = ∑ k, f (ω k) := by
    intro ω
    rw [Finset.card_filter]
    push_cast
    refine Finset.sum_congr rfl fun k _ => ?_
    simp only [hf, Set.indicator, Set.mem_ofPred_eq]
  simp only [hcard]
  have hk : ∀ k ∈ (Finset.univ : Finset (Fin n)), Integrable (fun ω : Fin n → ℝ × (Fin 3 → ℝ) => f (ω k)) (Measure.pi fun _ : Fin n => Spec.draws) :=
    fun k _ => ((hev k).integrable_comp hint.aestronglyMeasurable).2 hint
  rw [integral_finsetSum _ hk]
  have hone : ∀ k : Fin n, ∫ ω, f (ω k) ∂(Measure.pi fun _ : Fin n => Spec.draws) = q := by
    intro k
    have := integral_map (hev k).measurable.aemeasurable (by rw [(hev k).map_eq]; exact hint.aestronglyMeasurable)
    rw [(hev k).map_eq, hval] at this
    exact this.symm
  simp only [hone, Finset.sum_const, Finset.card_univ, Fintype.card_fin, nsmul_eq_mul]
  rw [hq2]

/-- C59: averaged over the number of satellites too, the mean number within radius `i/999` of the halo radius is the mean number of
satellites of the halo times the fraction of the mass there: the catalogue has the profile of the model. -/
theorem C59_mean_profile {s : Shape} (hs : s.Exact) (h0 : s.h 0 = 0) {e : Env} (he : e.Good) (hb : e.etaBloat = 0) {m : ℝ} (hm : 0 < m)
    {c : Option ℝ} (hc : ∀ v, c = some v → 0 < v) {isp : Spl} (hi : SplOk isp) (hinc : s.InverseIncreasing e isp m c) (centre : Fin 3 → ℝ)
    (hod : HOD.Hod) :
    ∃ pos : ℝ × (Fin 3 → ℝ) → Fin 3 → ℝ, (∀ u g, s.populateOne e isp m c centre u g = .ok (pos (u, g))) ∧
      ∀ i : ℕ, i < 1000 → open Classical in
        haloMean hod m (fun _ n => ∫ ω : Fin n → ℝ × (Fin 3 → ℝ),
            ((Finset.univ.filter fun k => dist3 (pos (ω k)) centre ≤ i / 999 * e.massToRadius m).card : ℝ) ∂(Measure.pi fun _ => Spec.draws)) =
          haloMean hod m (fun _ n => n) * enclosed (fun r => val (s.rho e r m .m c)) (i / 999 * e.massToRadius m) := by
  classical
  obtain ⟨pos, hp, hn⟩ := C59_expected_number hs h0 he hb hm hc hi hinc centre
  refine ⟨pos, hp, fun i h => ?_⟩
  simp only [hn _ i h]
  generalize enclosed (fun r => val (s.rho e r m .m c)) (i / 999 * e.massToRadius m) = q
  have e1 : ∀ lam, Spec.poissonE lam (fun n => (n:ℝ) * q) = q * Spec.poissonE lam (fun n => n) := by
    intro lam
    rw [← Spec.poissonE_const_mul]
    congr 1
    funext n
    ring
  unfold haloMean
  split_ifs <;> simp only [e1, Nat.cast_zero, zero_mul, mul_zero, zero_add] <;> ring

/-- the condition on the spline holds for piecewise-linear interpolation, for every profile with an exact mass function. -/
theorem inverseIncreasing_linear {s : Shape} (hs : s.Exact) (h0 : s.h 0 = 0) {e : Env} (he : e.Good) (hb : e.etaBloat = 0) {m : ℝ} (hm : 0 < m)
    {c : Option ℝ} (hc : ∀ v, c = some v → 0 < v) : s.InverseIncreasing e linSpl m c := by
  have hcp := conc_pos hs he hm hc
  have hR := (C23_overdensity he false hm).1
  have hF : ∀ i : ℕ, i < 1000 → val (s.cdf e (i / 999 * e.massToRadius m) c (some m)) = fTab s (s.conc e m c) i := by
    intro i hi
    have : s.cdf e (i / 999 * e.massToRadius m) c (some m) = .ok (s.h (i / 999 * e.massToRadius m / s.rs e m (s.conc e m c)) / s.h (s.conc e m c)) := rfl
    rw [this, rs_eq hs hb]
    unfold fTab xTab
    rw [linspace_unit i hi]
    change s.h _ / _ = _
    congr 2
    field_simp
  have hends := fTab_ends hs h0 hcp
  unfold Shape.InverseIncreasing
  have key := linSpl_strictMono 1000 (fun i : ℕ => val (s.cdf e (i / 999 * e.massToRadius m) c (some m))) (fun i : ℕ => i / 999 * s.conc e m c)
    (fun i j hij hj => by
      simp only [hF i (by omega), hF j hj]
      exact fTab_lt hs h0 hcp hij hj)
    (fun i j hij hj => by
      have : (i:ℝ) < j := by exact_mod_cast hij
      gcongr)
  have e0 : val (s.cdf e (((0:ℕ):ℝ) / 999 * e.massToRadius m) c (some m)) = 0 := by rw [hF 0 (by norm_num)]; exact hends.1
  have e1 : val (s.cdf e (((999:ℕ):ℝ) / 999 * e.massToRadius m) c (some m)) = 1 := by rw [hF 999 (by norm_num)]; exact hends.2
  simp only [show (1000 - 1 : ℕ) = 999 from rfl, e0, e1] at key
  exact key

/-- a case that meets the hypotheses: an NFW halo of 1e12 solar masses, linear interpolation, the default HOD. -/
example : SplOk linSpl ∧ nfw.Exact ∧ nfw.h 0 = 0 ∧ fidEnv.Good ∧ fidEnv.etaBloat = 0 ∧ nfw.InverseIncreasing fidEnv linSpl 1e12 none :=
  ⟨linSpl_lin.toSplOk, C24_nfw_exact, C27_h_zero.1, fidEnv_good, rfl,
    inverseIncreasing_linear C24_nfw_exact C27_h_zero.1 fidEnv_good rfl (by norm_num) (by simp)⟩

end Halomod.Profiles
