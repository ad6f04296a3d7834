import Verif.Props.Bias

/-!
# C33, C34 continued: `Tinker10PBSplit`
-/
namespace Halomod.Bias

/-- C33: the default parameters of `Tinker10PBSplit` are the published table: at each published
overdensity the row found there, at any other overdensity interpolation. -/
theorem C33_tinkerPB_table (d β γ φ η : ℝ) :
    tkRow d = some ⟨β, γ, φ, η⟩ ↔ (d, β, γ, φ, η) ∈ tinker10Table4 := by
  unfold tkRow tinker10Table4
  simp only [List.mem_cons, Prod.mk.injEq, List.not_mem_nil, or_false]
  split_ifs with h1 h2 h3 h4 h5 h6 h7 h8 h9 <;>
    first
    | (subst_vars
       simp only [Option.some.injEq, TkRow.mk.injEq]
       constructor
       · rintro ⟨rfl, rfl, rfl, rfl⟩; norm_num
       · intro h
         rcases h with h | h | h | h | h | h | h | h | h <;>
           first
           | (exact ⟨h.2.1.symm, h.2.2.1.symm, h.2.2.2.1.symm, h.2.2.2.2.symm⟩)
           | (exfalso; revert h; norm_num))
    | (simp only [false_iff]; tauto)

/-- the redshift scaling of the bracketing ratio. -/
theorem pow_041 {w : ℝ} (h1 : 1 ≤ w) (h4 : w ≤ 4) : w ^ (0.41 : ℝ) ≤ 1.7857 := by
  calc w ^ (0.41 : ℝ) ≤ 4 ^ (0.41 : ℝ) := Real.rpow_le_rpow (by linarith) h4 (by norm_num)
    _ ≤ 1.7857 := by
      have h : ((4 : ℝ) ^ (0.41 : ℝ)) ^ (100 : ℕ) ≤ (1.7857 : ℝ) ^ (100 : ℕ) := by
        rw [← Real.rpow_natCast, ← Real.rpow_mul (by norm_num)]
        have : (0.41 : ℝ) * ((100 : ℕ) : ℝ) = ((41 : ℕ) : ℝ) := by norm_num
        rw [this, Real.rpow_natCast]; norm_num
      exact le_of_pow_le_pow_left₀ (by norm_num) (by norm_num) h

theorem tkRow_slack {d : ℝ} {r : TkRow} (h : tkRow d = some r) :
    2 * (-r.phi) ≤ 1 + 0.56 * (r.gamma / r.beta ^ 2) ∧ -r.phi ≤ 1.5 ∧ 1.5 ≤ 2 * r.gamma / r.beta ^ 2 := by
  unfold tkRow at h
  split_ifs at h <;> (cases h; norm_num)

/-- positivity criterion for the functional form. -/
theorem tinkerPB_pos (r : TkRow) {dc nu : ℝ} (hb : 0 < r.beta) (hg : 0 < r.gamma) (hp : r.phi < 0)
    (hdc : 0 < dc) (h1 : 1 ≤ dc - 1 - 2 * r.eta) (h2 : -r.phi ≤ 1.5)
    (h3 : 2 * (-r.phi) ≤ 1 + r.gamma / r.beta ^ 2) (h4 : (-r.phi) / 2 ≤ r.gamma / r.beta ^ 2) (hn : 0 < nu) :
    0 < tinkerPB r dc nu := by
  obtain ⟨β, γ, φ, η⟩ := r
  simp only at *
  obtain ⟨p, rfl⟩ : ∃ p, φ = -p := ⟨-φ, by ring⟩
  simp only [neg_neg] at *
  have hp0 : 0 < p := by linarith
  have hX : 0 < β ^ 2 * nu := by positivity
  have hγ : γ * nu = γ / β ^ 2 * (β ^ 2 * nu) := by field_simp
  unfold tinkerPB
  simp only
  rw [Real.rpow_neg hX.le]
  generalize hXe : β ^ 2 * nu = X at *
  have hu : 0 < X ^ p := Real.rpow_pos_of_pos hX p
  generalize hK : γ / β ^ 2 = K at *
  rw [hγ]
  have e : 1 + (K * X - (1 + 2 * η)) / dc + 2 * -p / dc / (1 + (X ^ p)⁻¹)
      = (dc - 1 - 2 * η + K * X - 2 * p * (X ^ p / (X ^ p + 1))) / dc := by
    field_simp; ring
  rw [e]
  apply div_pos _ hdc
  have hK0 : 0 < K := by rw [← hK]; positivity
  have hf1 : X ^ p / (X ^ p + 1) < 1 := by rw [div_lt_one (by linarith)]; linarith
  rcases le_or_gt 1 X with h | h
  · have : K ≤ K * X := by nlinarith
    nlinarith
  · rcases lt_or_ge p 1 with hp1 | hp1
    · have hu1 : X ^ p ≤ 1 := Real.rpow_le_one hX.le h.le hp0.le
      have hf : X ^ p / (X ^ p + 1) ≤ 1 / 2 := by
        rw [div_le_div_iff₀ (by linarith) (by norm_num)]; linarith
      have : 0 < K * X := by positivity
      nlinarith
    · have hu1 : X ^ p ≤ X := by
        calc X ^ p ≤ X ^ (1:ℝ) := Real.rpow_le_rpow_of_exponent_ge hX h.le hp1
          _ = X := Real.rpow_one X
      have hf : X ^ p / (X ^ p + 1) ≤ (1 + X) / 4 := by
        rw [div_le_div_iff₀ (by linarith) (by norm_num)]
        nlinarith [sq_nonneg (X ^ p - 1)]
      have hq : 2 * p * (X ^ p / (X ^ p + 1)) ≤ 2 * p * ((1 + X) / 4) :=
        mul_le_mul_of_nonneg_left hf (by linarith)
      have hKX : p / 2 * X ≤ K * X := mul_le_mul_of_nonneg_right h4 hX.le
      nlinarith

/-- C34: with its default parameters `Tinker10PBSplit` is positive at every tabulated overdensity, every
redshift and every peak height, for any collapse threshold of at least 1.52. -/
theorem C34_tinkerPB_positive (spl : ℝ → TkRow) {d z dc nu : ℝ} {β γ φ η : ℝ}
    (h : (d, β, γ, φ, η) ∈ tinker10Table4) (hz : 0 ≤ z) (hdc : 1.52 ≤ dc) (hn : 0 < nu) :
    0 < tinker10PBSplit spl {} d z dc nu := by
  rw [← C33_tinkerPB_table] at h
  obtain ⟨a1, a2, a3, a4, a5⟩ := tkRow_bounds h
  obtain ⟨b1, b2, b3⟩ := tkRow_slack h
  simp only at a1 a2 a3 a4 a5 b1 b2 b3
  unfold tinker10PBSplit
  rw [h]
  simp only [Option.getD_some]
  have hw : 1 ≤ 1 + min z 3 := by
    have : 0 ≤ min z 3 := le_min hz (by norm_num)
    linarith
  have hw4 : 1 + min z 3 ≤ 4 := by
    have := min_le_right z 3
    linarith
  have hw0 : 0 < 1 + min z 3 := by linarith
  have hratio : (γ * (1 + min z 3) ^ (-0.01 : ℝ)) / (β * (1 + min z 3) ^ (0.2 : ℝ)) ^ 2
      = γ / β ^ 2 / (1 + min z 3) ^ (0.41 : ℝ) := by
    have e1 : (1 + min z 3) ^ (0.41 : ℝ) * (1 + min z 3) ^ (-0.01 : ℝ)
        = ((1 + min z 3) ^ (0.2 : ℝ)) ^ 2 := by
      rw [← Real.rpow_natCast, ← Real.rpow_mul hw0.le, ← Real.rpow_add hw0]; norm_num
    have p1 : 0 < (1 + min z 3) ^ (0.2 : ℝ) := by positivity
    have p2 : 0 < (1 + min z 3) ^ (0.41 : ℝ) := by positivity
    rw [mul_pow, ← e1]
    have p3 : 0 < (1 + min z 3) ^ (-0.01 : ℝ) := by positivity
    field_simp
  have h41 := pow_041 hw hw4
  have h41' : 0 < (1 + min z 3) ^ (0.41 : ℝ) := by positivity
  have hr : 0.56 * (γ / β ^ 2) ≤ γ / β ^ 2 / (1 + min z 3) ^ (0.41 : ℝ) := by
    rw [le_div_iff₀ h41']
    have : 0 < γ / β ^ 2 := by positivity
    nlinarith
  have hφ1 : (1 + min z 3) ^ (-0.08 : ℝ) ≤ 1 := Real.rpow_le_one_of_one_le_of_nonpos hw (by norm_num)
  have hφ0 : 0 < (1 + min z 3) ^ (-0.08 : ℝ) := by positivity
  have hη1 : 1 ≤ (1 + min z 3) ^ (0.27 : ℝ) := Real.one_le_rpow hw (by norm_num)
  have hK : 0.75 ≤ γ / β ^ 2 := by
    have : 2 * γ / β ^ 2 = 2 * (γ / β ^ 2) := by ring
    linarith
  apply tinkerPB_pos _ (dc := dc) _ _ _ (by linarith) _ _ _ _ hn <;> simp only [tkEvolve]
  · positivity
  · positivity
  · nlinarith
  · nlinarith
  · nlinarith
  · rw [hratio]; nlinarith
  · rw [hratio]; nlinarith

example : (800, 0.564, 1.2, -1.2, -0.278) ∈ tinker10Table4 := by
  simp [tinker10Table4]

end Halomod.Bias
