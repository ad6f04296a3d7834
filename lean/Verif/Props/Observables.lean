import Verif.Model.Observables
import Verif.Props.IntegrateCorr
import Mathlib.Tactic

/-! # C55: constructing with settings and updating to them -/
namespace Halomod.Observables

open Halomod.IntegrateCorr Halomod.HaloModel

/-- the keywords of `K`, replaced by those of `U` where given. -/
def ProjKw.over (K U : ProjKw) : ProjKw where
  rpMin := U.rpMin.or K.rpMin
  rpMax := U.rpMax.or K.rpMax
  rpNum := U.rpNum.or K.rpNum
  rpLog := U.rpLog.or K.rpLog
  projLimit := U.projLimit.or K.projLimit
  rnum := U.rnum.or K.rnum
  rest := fun k => (U.rest k).or (K.rest k)

/-- the keywords of `K`, replaced by those of `U` where given. -/
def AngKw.over (K U : AngKw) : AngKw where
  p1 := U.p1.or K.p1
  p2 := U.p2.or K.p2
  thetaMin := U.thetaMin.or K.thetaMin
  thetaMax := U.thetaMax.or K.thetaMax
  zmin := U.zmin.or K.zmin
  zmax := U.zmax.or K.zmax
  z := U.z.or K.z
  rest := fun k => (U.rest k).or (K.rest k)

theorem or_getD {α : Type} (u k : Option α) (d : α) : (u.or k).getD d = u.getD (k.getD d) := by
  cases u <;> simp

theorem over_eq (s u : Table) : Observables.over s u = fun k => (u k).or (s k) := by
  funext k
  unfold Observables.over
  cases u k <;> rfl

theorem projConstruct_ok {K : ProjKw} {s : ProjSt} (h : projConstruct K = .ok s) :
    0 ≤ K.rpNum.getD 30 ∧ s.rpMin = K.rpMin.getD 0.01 ∧ s.rpMax = K.rpMax.getD 50.0 ∧
    s.rpNum = pyInt (K.rpNum.getD 30) ∧ s.rpLog = K.rpLog.getD true ∧ s.projLimit = K.projLimit.getD none ∧
    s.rnum = pyInt (K.rnum.getD (5 * K.rpNum.getD 30)) ∧ s.rest = K.rest := by
  unfold projConstruct at h
  simp only at h
  split_ifs at h with hneg
  cases h
  exact ⟨not_lt.mp hneg, rfl, rfl, rfl, rfl, rfl, rfl, rfl⟩

/-- C55: a projected-correlation model rejects the same settings whether they are given at construction or by an
update, and otherwise the two agree in every setting except possibly `rnum`. -/
theorem C55_projected_settings (K U : ProjKw) (s : ProjSt) (hs : projConstruct K = .ok s) :
    (∀ e, projUpdate s U = .error e ↔ projConstruct (K.over U) = .error e) ∧
    ∀ s' t, projUpdate s U = .ok s' → projConstruct (K.over U) = .ok t →
      s'.rpMin = t.rpMin ∧ s'.rpMax = t.rpMax ∧ s'.rpNum = t.rpNum ∧ s'.rpLog = t.rpLog ∧
      s'.projLimit = t.projLimit ∧ s'.rest = t.rest := by
  obtain ⟨h0, h1, h2, h3, h4, h5, h6, h7⟩ := projConstruct_ok hs
  constructor
  · intro e
    unfold projUpdate projConstruct ProjKw.over
    simp only [or_getD]
    cases hU : U.rpNum with
    | none =>
      simp only [Option.getD_none]
      rw [if_neg (not_lt.mpr h0)]
      simp
    | some v =>
      simp only [Option.getD_some]
      split_ifs <;> simp
  · intro s' t hs' ht
    obtain ⟨-, t1, t2, t3, t4, t5, -, t7⟩ := projConstruct_ok ht
    simp only [ProjKw.over, or_getD] at t1 t2 t3 t4 t5 t7
    unfold projUpdate at hs'
    have : s' = { rpMin := U.rpMin.getD s.rpMin, rpMax := U.rpMax.getD s.rpMax, rpNum := (U.rpNum.map pyInt).getD s.rpNum, rpLog := U.rpLog.getD s.rpLog, projLimit := U.projLimit.getD s.projLimit, rnum := (U.rnum.map pyInt).getD s.rnum, rest := Observables.over s.rest U.rest } := by
      cases hU : U.rpNum with
      | none => rw [hU] at hs'; simp only at hs'; exact (Except.ok.inj hs').symm
      | some v =>
        rw [hU] at hs'; simp only at hs'
        split_ifs at hs'
        exact (Except.ok.inj hs').symm
    subst this
    refine ⟨by rw [t1, h1], by rw [t2, h2], ?_, by rw [t4, h4], by rw [t5, h5], by rw [t7, h7, over_eq]⟩
    rw [t3, h3]
    cases U.rpNum <;> rfl

/-- C55: updating a projected-correlation model is the same as constructing it with the combined settings exactly
when `rnum` has been given, or the default it gets from `rp_num` does not change (or the settings are refused). -/
theorem C55_projected_update_iff (K U : ProjKw) (s : ProjSt) (hs : projConstruct K = .ok s) :
    projUpdate s U = projConstruct (K.over U) ↔
      (K.rnum.isSome ∨ U.rnum.isSome ∨ (∃ v, U.rpNum = some v ∧ v < 0) ∨
        pyInt (5 * K.rpNum.getD 30) = pyInt (5 * U.rpNum.getD (K.rpNum.getD 30))) := by
  obtain ⟨h0, h1, h2, h3, h4, h5, h6, h7⟩ := projConstruct_ok hs
  by_cases hv : ∃ v, U.rpNum = some v ∧ v < 0
  · obtain ⟨v, hU, hneg⟩ := hv
    have e1 : projUpdate s U = .error .rpNum := by unfold projUpdate; rw [hU]; simp [hneg]
    have e2 := ((C55_projected_settings K U s hs).1 .rpNum).mp e1
    rw [e1, e2]
    exact ⟨fun _ => Or.inr (Or.inr (Or.inl ⟨v, hU, hneg⟩)), fun _ => rfl⟩
  · have hnn : ¬ U.rpNum.getD (K.rpNum.getD 30) < 0 := by
      cases hU : U.rpNum with
      | none => simpa using h0
      | some v => simp only [Option.getD_some]; exact fun h => hv ⟨v, hU, h⟩
    have e1 : projUpdate s U = .ok { rpMin := U.rpMin.getD s.rpMin, rpMax := U.rpMax.getD s.rpMax, rpNum := (U.rpNum.map pyInt).getD s.rpNum, rpLog := U.rpLog.getD s.rpLog, projLimit := U.projLimit.getD s.projLimit, rnum := (U.rnum.map pyInt).getD s.rnum, rest := Observables.over s.rest U.rest } := by
      unfold projUpdate
      cases hU : U.rpNum with
      | none => rfl
      | some v => simp only; rw [if_neg fun h => hv ⟨v, hU, h⟩]
    have e2 : ∃ t, projConstruct (K.over U) = .ok t := by
      unfold projConstruct ProjKw.over
      simp only [or_getD]
      rw [if_neg hnn]; exact ⟨_, rfl⟩
    obtain ⟨t, ht⟩ := e2
    obtain ⟨g1, g2, g3, g4, g5, g7⟩ := (C55_projected_settings K U s hs).2 _ t e1 ht
    obtain ⟨-, -, -, -, -, -, t6, -⟩ := projConstruct_ok ht
    simp only [ProjKw.over, or_getD] at t6
    rw [e1, ht]
    have key : (Except.ok (ε := Err) { rpMin := U.rpMin.getD s.rpMin, rpMax := U.rpMax.getD s.rpMax, rpNum := (U.rpNum.map pyInt).getD s.rpNum, rpLog := U.rpLog.getD s.rpLog, projLimit := U.projLimit.getD s.projLimit, rnum := (U.rnum.map pyInt).getD s.rnum, rest := Observables.over s.rest U.rest } = .ok t) ↔ (U.rnum.map pyInt).getD s.rnum = t.rnum := by
      constructor
      · intro h; rw [← Except.ok.inj h]
      · intro h
        cases t
        simp only at g1 g2 g3 g4 g5 g7 h
        rw [g1, g2, g3, g4, g5, g7, h]
    rw [key, t6, h6]
    cases hU : U.rnum with
    | some v => simp
    | none =>
      cases hK : K.rnum with
      | some w => simp
      | none => simp [hv]

/-- C55 (finding): a default model updated to `rp_num=60` has half the separations of a model constructed with
`rp_num=60`. -/
theorem C55_projected_stale :
    ∃ s s' t, projConstruct {} = .ok s ∧ projUpdate s { rpNum := some 60 } = .ok s' ∧
      projConstruct { rpNum := some 60 } = .ok t ∧ s'.rnum = 150 ∧ t.rnum = 300 ∧ s'.rpNum = t.rpNum := by
  have hp : ∀ n : ℤ, 0 ≤ n → pyInt (n : ℝ) = n := by
    intro n hn; unfold pyInt; rw [if_pos (by exact_mod_cast hn)]; simp
  have e150 : pyInt (5 * 30) = 150 := by have := hp 150 (by norm_num); norm_num at this ⊢; exact this
  have e300 : pyInt (5 * 60) = 300 := by have := hp 300 (by norm_num); norm_num at this ⊢; exact this
  refine ⟨⟨0.01, 50.0, pyInt 30, true, none, pyInt (5 * 30), fun _ => none⟩,
    ⟨0.01, 50.0, pyInt 60, true, none, pyInt (5 * 30), Observables.over (fun _ => none) fun _ => none⟩,
    ⟨0.01, 50.0, pyInt 60, true, none, pyInt (5 * 60), fun _ => none⟩, ?_, ?_, ?_, e150, e300, rfl⟩
  · unfold projConstruct; simp only [Option.getD_none]; rw [if_neg (by norm_num)]
  · unfold projUpdate; simp only; rw [if_neg (by norm_num)]; rfl
  · unfold projConstruct; simp only [Option.getD_some]; rw [if_neg (by norm_num)]; rfl

/-- C55: the default line-of-sight limit passes the end of the correlation table, where the correlation is taken to
be zero, exactly for maximum projected radii above a fifth of that end; setting such an `rp_max` gives no warning
unless it is itself beyond the table. -/
theorem C55_projected_beyond_table (rpm : ℝ) :
    rmaxWarns (rlim none rpm) ↔ (10:ℝ) ^ (2.5:ℝ) / 5 < rpm := by
  have h80 : (80:ℝ) < (10:ℝ) ^ (2.5:ℝ) := by
    have : (10:ℝ) ^ (2:ℝ) < (10:ℝ) ^ (2.5:ℝ) := Real.rpow_lt_rpow_of_exponent_lt (by norm_num) (by norm_num)
    have h2 : (10:ℝ) ^ (2:ℝ) = 100 := by norm_num
    linarith
  unfold rmaxWarns rlim
  simp only [gt_iff_lt, lt_max_iff]
  rw [div_lt_iff₀ (by norm_num), mul_comm]
  constructor
  · rintro (h | h)
    · linarith
    · exact h
  · exact Or.inr

/-! ## angular -/

theorem angConstruct_ok {K : AngKw} {s : AngSt} (h : angConstruct K = .ok s) :
    thetaMinOk s.thetaMin ∧ thetaMaxOk s.thetaMax ∧
    s.p1 = some ((K.p1.getD none).getD (flatZ (K.zmin.getD 0.2) (K.zmax.getD 0.4))) ∧ s.p2 = K.p2.getD none ∧
    s.thetaMin = K.thetaMin.getD (1e-3 * Real.pi / 180.0) ∧ s.thetaMax = K.thetaMax.getD (Real.pi / 180.0) ∧
    s.zmin = K.zmin.getD 0.2 ∧ s.zmax = K.zmax.getD 0.4 ∧ s.z = K.z.getD 0 ∧ s.rest = K.rest := by
  classical
  unfold angConstruct at h
  simp only at h
  split_ifs at h with h1 h2
  cases h
  refine ⟨h1, h2, ?_, rfl, rfl, rfl, rfl, rfl, rfl, rfl⟩
  simp only
  cases K.p1.getD none <;> rfl

/-- the flat distribution determines its range. -/
theorem flatZ_inj {a b a' b' : ℝ} (h : a < b) (h' : a' < b') : flatZ a b = flatZ a' b' ↔ a = a' ∧ b = b' := by
  constructor
  · intro e
    have pos : ∀ {a b z : ℝ}, a < b → (flatZ a b z ≠ 0 ↔ a ≤ z ∧ z ≤ b) := by
      intro a b z hab
      unfold flatZ
      split_ifs with hc
      · simp only [ne_eq, hc, and_self, iff_true]
        exact (div_pos one_pos (by linarith)).ne'
      · simp [hc]
    have key : ∀ z, (a ≤ z ∧ z ≤ b) ↔ (a' ≤ z ∧ z ≤ b') := by
      intro z; rw [← pos h, ← pos h', e]
    have k1 := (key a).mp ⟨le_rfl, h.le⟩
    have k2 := (key b).mp ⟨h.le, le_rfl⟩
    have k3 := (key a').mpr ⟨le_rfl, h'.le⟩
    have k4 := (key b').mpr ⟨h'.le, le_rfl⟩
    exact ⟨le_antisymm k3.1 k1.1, le_antisymm k2.2 k4.2⟩
  · rintro ⟨rfl, rfl⟩; rfl

/-- C55: an angular-correlation model refuses the same settings whether given at construction or by an update. -/
theorem C55_angular_errors (K U : AngKw) (s : AngSt) (hs : angConstruct K = .ok s) (e : Err) :
    angUpdate s U = .error e ↔ angConstruct (K.over U) = .error e := by
  classical
  obtain ⟨-, -, h1, h2, h3, h4, h5, h6, h7, h8⟩ := angConstruct_ok hs
  unfold angUpdate angConstruct AngKw.over
  simp only [or_getD, h3, h4]
  split_ifs <;> simp

/-- C55: when the settings are accepted, updating is the same as constructing with the combined settings exactly when
the update does not set the distribution to `None`, and, if the distribution is left at its default throughout, the
redshift range does not change. -/
theorem C55_angular_update_iff (K U : AngKw) (s : AngSt) (hs : angConstruct K = .ok s)
    (hK : K.zmin.getD 0.2 < K.zmax.getD 0.4)
    (hU : (K.over U).zmin.getD 0.2 < (K.over U).zmax.getD 0.4)
    (hok : ∃ t, angConstruct (K.over U) = .ok t) :
    angUpdate s U = angConstruct (K.over U) ↔
      (U.p1 ≠ some none ∧ (U.p1 = none → K.p1.getD none = none →
        (K.over U).zmin.getD 0.2 = K.zmin.getD 0.2 ∧ (K.over U).zmax.getD 0.4 = K.zmax.getD 0.4)) := by
  classical
  obtain ⟨t, ht⟩ := hok
  obtain ⟨-, -, h1, h2, h3, h4, h5, h6, h7, h8⟩ := angConstruct_ok hs
  have hup : ∃ s', angUpdate s U = .ok s' := by
    cases hc : angUpdate s U with
    | ok s' => exact ⟨s', rfl⟩
    | error e => rw [(C55_angular_errors K U s hs e).mp hc] at ht; cases ht
  obtain ⟨s', hs'⟩ := hup
  have hs'' : s' = { p1 := U.p1.getD s.p1, p2 := U.p2.getD s.p2, thetaMin := U.thetaMin.getD s.thetaMin, thetaMax := U.thetaMax.getD s.thetaMax, zmin := U.zmin.getD s.zmin, zmax := U.zmax.getD s.zmax, z := U.z.getD s.z, rest := Observables.over s.rest U.rest } := by
    unfold angUpdate at hs'
    simp only at hs'
    split_ifs at hs'
    exact (Except.ok.inj hs').symm
  obtain ⟨-, -, t1, t2, t3, t4, t5, t6, t7, t8⟩ := angConstruct_ok ht
  rw [hs', ht]
  simp only [AngKw.over, or_getD] at t1 t2 t3 t4 t5 t6 t7 t8 hU ⊢
  have key : (Except.ok (ε := Err) s' = .ok t) ↔ U.p1.getD s.p1 = t.p1 := by
    constructor
    · intro h; rw [← Except.ok.inj h, hs'']
    · intro h
      rw [hs'']
      cases t
      simp only at t2 t3 t4 t5 t6 t7 t8 h
      rw [h, t2, t3, t4, t5, t6, t7, t8, h2, h3, h4, h5, h6, h7, h8, over_eq]
  rw [key, t1, h1]
  cases hp : U.p1 with
  | some o =>
    cases o with
    | none => simp
    | some f => simp
  | none =>
    simp only [Option.getD_none, ne_eq, reduceCtorEq, not_false_eq_true, true_and, forall_true_left]
    cases hk : K.p1.getD none with
    | some f => simp
    | none =>
      simp only [Option.getD_none, Option.some.injEq, forall_true_left]
      rw [flatZ_inj hK hU]
      constructor <;> rintro ⟨a, b⟩ <;> exact ⟨a.symm, b.symm⟩

/-- C55 (finding): with the default distribution, moving the sample to a range beyond the one the model was
constructed with leaves a distribution that is zero in the whole new range, so its normalisation integral vanishes;
a model constructed with the new range has the flat distribution there. -/
theorem C55_angular_stale_range (a b c d : ℝ) (hbc : b < c) (hcd : c < d) {n : ℕ} (hn : 1 < n) :
    ∃ s s' t f g, angConstruct { zmin := some a, zmax := some b } = .ok s ∧
      angUpdate s { zmin := some c, zmax := some d } = .ok s' ∧ angConstruct { zmin := some c, zmax := some d } = .ok t ∧
      s'.p1 = some f ∧ t.p1 = some g ∧ (∀ z, c ≤ z → z ≤ d → f z = 0 ∧ g z = 1 / (d - c)) ∧
      integ ⟨f, none⟩ n (zGrid c d n) = 0 ∧ integ ⟨g, none⟩ n (zGrid c d n) = 1 := by
  classical
  have ok1 : thetaMinOk (1e-3 * Real.pi / 180.0) := by
    unfold thetaMinOk; have := Real.pi_pos; push Not; positivity
  have ok2 : thetaMaxOk (Real.pi / 180.0) := by
    unfold thetaMaxOk; have := Real.pi_lt_four; push Not
    rw [div_le_iff₀ (by norm_num)]; norm_num; linarith
  have hf : ∀ z, c ≤ z → z ≤ d → flatZ a b z = 0 := by
    intro z hz _
    unfold flatZ
    rw [if_neg]; rintro ⟨_, h⟩; linarith
  refine ⟨⟨some (flatZ a b), none, 1e-3 * Real.pi / 180.0, Real.pi / 180.0, a, b, 0, fun _ => none⟩,
    ⟨some (flatZ a b), none, 1e-3 * Real.pi / 180.0, Real.pi / 180.0, c, d, 0, Observables.over (fun _ => none) fun _ => none⟩,
    ⟨some (flatZ c d), none, 1e-3 * Real.pi / 180.0, Real.pi / 180.0, c, d, 0, fun _ => none⟩, flatZ a b, flatZ c d, ?_, ?_, ?_, rfl, rfl, ?_, ?_, ?_⟩
  · unfold angConstruct; simp [ok1, ok2]
  · unfold angUpdate; simp [ok1, ok2]
  · unfold angConstruct; simp [ok1, ok2]
  · intro z h1 h2
    refine ⟨hf z h1 h2, ?_⟩
    unfold flatZ; rw [if_pos ⟨h1, h2⟩]
  · unfold integ
    simp only
    rw [simpsonX_congr (by omega) (g := fun _ => 0) ?_]
    · have := simpsonX_const n (by omega) (zGrid c d n) (fun i j hij _ => linspace_lt _ _ hcd hn hij) 0
      simpa using this
    · intro i hi
      have h0 := (linspace_ends c d hn).1
      have h1 := (linspace_ends c d hn).2
      apply hf
      · rcases Nat.eq_zero_or_pos i with e | e
        · rw [e]; exact h0.ge
        · have := linspace_lt c d hcd hn e
          exact (h0.ge.trans this.le)
      · rcases Nat.eq_or_lt_of_le (Nat.le_sub_one_of_lt hi) with e | e
        · rw [e]; exact h1.le
        · exact (linspace_lt c d hcd hn e).le.trans h1.le
  · exact (C42_flat_checked c d hcd hn).1

/-- C55: the constructor warns exactly when the redshift of the halo model is outside the range of the sample; hence
always for a model constructed with the default redshift and range. -/
theorem C55_redshift_warning (K : AngKw) :
    (angWarns K ↔ K.z.getD 0 ∉ Set.Icc (K.zmin.getD 0.2) (K.zmax.getD 0.4)) ∧ angWarns {} := by
  constructor
  · unfold angWarns
    rw [Set.mem_Icc, not_and_or, not_le, not_le]
  · left; norm_num

/-- C55: the stored sample sizes are the requested ones truncated towards zero, at construction and on update: `rp_num`
is the largest whole number not above the request, `rnum` likewise for a request `≥ 0` and the smallest whole number not
below it for a negative request (which is accepted).  The default `rnum` is five times the *requested*, not the stored,
`rp_num`. -/
theorem C55_sizes_truncated :
    (∀ (K : ProjKw) (s : ProjSt) (v : ℝ), projConstruct K = .ok s → K.rpNum = some v →
      0 ≤ s.rpNum ∧ (s.rpNum : ℝ) ≤ v ∧ v < s.rpNum + 1) ∧
    (∀ (K : ProjKw) (s s' : ProjSt) (v : ℝ), projUpdate s K = .ok s' → K.rpNum = some v →
      0 ≤ s'.rpNum ∧ (s'.rpNum : ℝ) ≤ v ∧ v < s'.rpNum + 1) ∧
    (∀ (K : ProjKw) (s : ProjSt) (v : ℝ), projConstruct K = .ok s → K.rnum = some v →
      (0 ≤ v → 0 ≤ s.rnum ∧ (s.rnum : ℝ) ≤ v ∧ v < s.rnum + 1) ∧
      (v < 0 → s.rnum ≤ 0 ∧ v ≤ s.rnum ∧ (s.rnum : ℝ) < v + 1)) ∧
    (∀ (K : ProjKw) (s : ProjSt) (v : ℝ), projConstruct K = .ok s → K.rpNum = some v → K.rnum = none →
      (s.rnum : ℝ) ≤ 5 * v ∧ 5 * v < s.rnum + 1) ∧
    ∃ s, projConstruct { rpNum := some 2.9 } = .ok s ∧ s.rpNum = 2 ∧ s.rnum = 14 := by
  have hpos : ∀ v : ℝ, 0 ≤ v → 0 ≤ pyInt v ∧ (pyInt v : ℝ) ≤ v ∧ v < pyInt v + 1 := by
    intro v hv
    unfold pyInt
    rw [if_pos hv]
    exact ⟨Int.floor_nonneg.mpr hv, Int.floor_le v, Int.lt_floor_add_one v⟩
  have hneg : ∀ v : ℝ, v < 0 → pyInt v ≤ 0 ∧ v ≤ pyInt v ∧ (pyInt v : ℝ) < v + 1 := by
    intro v hv
    unfold pyInt
    rw [if_neg (not_le.mpr hv)]
    exact ⟨Int.ceil_le.mpr (by simpa using hv.le), Int.le_ceil v, Int.ceil_lt_add_one v⟩
  refine ⟨?_, ?_, ?_, ?_, ?_⟩
  · intro K s v h hv
    obtain ⟨h0, -, -, h3, -, -, -, -⟩ := projConstruct_ok h
    rw [hv] at h0 h3
    simp only [Option.getD_some] at h0 h3
    rw [h3]; exact hpos v h0
  · intro K s s' v h hv
    unfold projUpdate at h
    simp only [hv] at h
    split_ifs at h with hn
    cases h
    simpa using hpos v (not_lt.mp hn)
  · intro K s v h hv
    obtain ⟨-, -, -, -, -, -, h6, -⟩ := projConstruct_ok h
    rw [hv] at h6
    simp only [Option.getD_some] at h6
    rw [h6]; exact ⟨hpos v, hneg v⟩
  · intro K s v h hv hr
    obtain ⟨h0, -, -, -, -, -, h6, -⟩ := projConstruct_ok h
    rw [hv] at h0 h6
    rw [hr] at h6
    simp only [Option.getD_some, Option.getD_none] at h0 h6
    rw [h6]; exact (hpos (5 * v) (by positivity)).2
  · have e1 : pyInt 2.9 = 2 := by
      unfold pyInt; rw [if_pos (by norm_num)]; rw [Int.floor_eq_iff]; norm_num
    have e2 : pyInt (5 * 2.9) = 14 := by
      unfold pyInt; rw [if_pos (by norm_num)]; rw [Int.floor_eq_iff]; norm_num
    refine ⟨⟨0.01, 50.0, pyInt 2.9, true, none, pyInt (5 * 2.9), fun _ => none⟩, ?_, e1, e2⟩
    unfold projConstruct
    simp only [Option.getD_some, Option.getD_none]
    exact if_neg (by norm_num)

end Halomod.Observables
