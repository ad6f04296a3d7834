import Verif.Lemmas.SimpsonX2
import Mathlib.Topology.UniformSpace.UniformApproximation

/-!
# The double Simpson rule converges when both grids are refined, at any relative rate
-/
namespace Halomod

open Finset MeasureTheory Filter Topology

theorem simpsonX_contOn {s : Set ℝ} {n : ℕ} {x : ℕ → ℝ} {y : ℝ → ℕ → ℝ} (hn : 2 ≤ n)
    (h : ∀ i < n, ContinuousOn (fun z => y z i) s) : ContinuousOn (fun z => simpsonX n x (y z)) s := by
  have hb : ∀ b, 2 * b + 1 ≤ n → ContinuousOn (fun z => basicSimpsonX b x (y z)) s := by
    intro b hb
    unfold basicSimpsonX simpsonBlock
    refine continuousOn_finsetSum _ fun i hi => ?_
    have := mem_range.mp hi
    have h0 := h (2 * i) (by omega)
    have h1 := h (2 * i + 1) (by omega)
    have h2 := h (2 * i + 2) (by omega)
    exact continuousOn_const.mul (((h0.mul continuousOn_const).add (h1.mul continuousOn_const)).add (h2.mul continuousOn_const))
  unfold simpsonX
  split_ifs with h1 h2
  · subst h2
    exact continuousOn_const.mul ((h 1 (by omega)).add (h 0 (by omega)))
  · have hn4 : 4 ≤ n := by omega
    exact (hb _ (by omega)).add (((continuousOn_const.mul (h (n - 1) (by omega))).add
      (continuousOn_const.mul (h (n - 2) (by omega)))).sub (continuousOn_const.mul (h (n - 3) (by omega))))
  · exact hb _ (by omega)

variable {a b c d : ℝ} {φ φ' ψ ψ' : ℝ → ℝ}

/-- the inner integral is continuous in the outer variable. -/
theorem Change.inner_cont (hu : Change c d ψ ψ') (hcd : c < d) {F : ℝ → ℝ → ℝ}
    (hF : ContinuousOn (Function.uncurry F) (Set.Icc a b ×ˢ Set.Icc c d)) :
    ContinuousOn (fun z => ∫ t in c..d, F z t * ψ' t) (Set.Icc a b) := by
  have hunif : TendstoUniformlyOn (fun (n : ℕ) z => simpsonX (n + 2) (fun i => ψ (c + i * stp c d n)) (fun i => F z (c + i * stp c d n)))
      (fun z => ∫ t in c..d, F z t * ψ' t) atTop (Set.Icc a b) := by
    rw [Metric.tendstoUniformlyOn_iff]
    intro ε hε
    filter_upwards [hu.tendsto_unif hcd hF (ε := ε / 2) (by linarith)] with n hn z hz
    rw [dist_comm, Real.dist_eq]
    linarith [hn z hz]
  refine hunif.continuousOn (Eventually.frequently (Eventually.of_forall fun n => ?_))
  refine simpsonX_contOn (by omega) fun i hi => ?_
  have : ContinuousOn (fun z => Function.uncurry F (z, c + (i:ℝ) * stp c d n)) (Set.Icc a b) :=
    hF.comp (by fun_prop) fun z hz => ⟨hz, gmem hcd n i hi⟩
  exact this

/-- the double rule converges to the iterated integral, both numbers of samples going to infinity independently. -/
theorem Change.double (hx : Change a b φ φ') (hab : a < b) (hu : Change c d ψ ψ') (hcd : c < d) {F : ℝ → ℝ → ℝ}
    (hF : ContinuousOn (Function.uncurry F) (Set.Icc a b ×ˢ Set.Icc c d)) :
    Tendsto (fun nm : ℕ × ℕ => simpsonX (nm.1 + 2) (fun i => φ (a + i * stp a b nm.1)) fun i =>
        simpsonX (nm.2 + 2) (fun j => ψ (c + j * stp c d nm.2)) fun j => F (a + i * stp a b nm.1) (c + j * stp c d nm.2))
      (atTop ×ˢ atTop) (𝓝 (∫ z in a..b, (∫ t in c..d, F z t * ψ' t) * φ' z)) := by
  have hfab : φ a ≤ φ b := by
    have h1 := hx.ftc (Set.left_mem_Icc.2 hab.le) (Set.right_mem_Icc.2 hab.le) hab.le
    have : 0 ≤ ∫ u in a..b, φ' u := intervalIntegral.integral_nonneg hab.le fun t ht => (hx.pos t ht).le
    linarith [h1.2]
  set L := φ b - φ a + 1 with hL
  have hLpos : 0 < L := by linarith
  rw [Metric.tendsto_nhds]
  intro ε hε
  have e1 := hu.tendsto_unif hcd hF (ε := ε / (9 * L)) (by positivity)
  have e2 := Metric.tendsto_nhds.mp (hx.tendsto hab (hu.inner_cont hcd hF)) (ε / 2) (by linarith)
  filter_upwards [(e2.and (hx.graded hab)).prod_mk e1] with ⟨n, m⟩ h
  obtain ⟨⟨h2, hg⟩, h1⟩ := h
  rw [Real.dist_eq] at h2 ⊢
  have hd := simpsonX_diff (by omega) hg (y := fun i => simpsonX (m + 2) (fun j => ψ (c + j * stp c d m)) fun j => F (a + i * stp a b n) (c + j * stp c d m))
    (z := fun i => ∫ t in c..d, F (a + i * stp a b n) t * ψ' t) (η := ε / (9 * L)) fun i hi => h1 _ (gmem hab n i hi)
  simp only [show n + 2 - 1 = n + 1 by omega, glast, Nat.cast_zero, zero_mul, add_zero] at hd
  have e : 3 * ((φ b - φ a) * (ε / (9 * L))) = ε / 3 * ((φ b - φ a) / L) := by field_simp; ring
  rw [e] at hd
  have h1' : (φ b - φ a) / L ≤ 1 := by rw [div_le_one hLpos]; linarith
  have hd' : ε / 3 * ((φ b - φ a) / L) ≤ ε / 3 := by nlinarith
  calc _ ≤ _ := abs_sub_le _ (simpsonX (n + 2) (fun i => φ (a + i * stp a b n)) fun i => ∫ t in c..d, F (a + i * stp a b n) t * ψ' t) _
    _ < ε := by linarith

end Halomod
