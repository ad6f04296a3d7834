import Verif.Model.Exclusion
import Mathlib.Algebra.BigOperators.Group.List.Basic
import Mathlib.Data.List.Nodup
import Mathlib.Data.List.Range

/-! Helper lemmas for `Props/Exclusion.lean` (no claims here). -/
namespace Halomod.Exclusion

open Finset

/-- accumulated factor of a list of updates at one matrix entry -/
noncomputable def fac (L : List Upd) (i j : ℕ) : ℝ :=
  (L.map fun u => if i = u.a ∧ j = u.b then u.c else 1).prod

theorem foldl_mulAt (L : List Upd) (W : Mat) (i j : ℕ) :
    L.foldl mulAt W i j = W i j * fac L i j := by
  induction L generalizing W with
  | nil => simp [fac]
  | cons u t ih =>
    rw [List.foldl_cons, ih]
    unfold fac mulAt
    rw [List.map_cons, List.prod_cons]
    split_ifs <;> ring

theorem fac_nil (i j : ℕ) : fac [] i j = 1 := by simp [fac]

theorem fac_cons (u : Upd) (L : List Upd) (i j : ℕ) :
    fac (u :: L) i j = (if i = u.a ∧ j = u.b then u.c else 1) * fac L i j := by simp [fac]

theorem fac_append (L M : List Upd) (i j : ℕ) : fac (L ++ M) i j = fac L i j * fac M i j := by
  simp [fac]

theorem fac_flatMap {α : Type} (L : List α) (f : α → List Upd) (i j : ℕ) :
    fac (L.flatMap f) i j = (L.map fun x => fac (f x) i j).prod := by
  induction L with
  | nil => simp [fac]
  | cons a t ih => rw [List.flatMap_cons, fac_append, ih]; simp

theorem prod_ite_nodup {L : List ℕ} (h : L.Nodup) (p : Prop) [Decidable p] (i : ℕ) (c : ℝ) :
    (L.map fun x => if p ∧ i = x then c else 1).prod = if p ∧ i ∈ L then c else 1 := by
  induction L with
  | nil => simp
  | cons a t ih =>
    rw [List.nodup_cons] at h
    rw [List.map_cons, List.prod_cons, ih h.2]
    by_cases hp : p
    · by_cases ha : i = a
      · subst ha; simp [hp, h.1]
      · simp [hp, ha]
    · simp [hp]

theorem prod_ite_nodup' {L : List ℕ} (h : L.Nodup) (p : Prop) [Decidable p] (i : ℕ) (c : ℝ) :
    (L.map fun x => if i = x ∧ p then c else 1).prod = if p ∧ i ∈ L then c else 1 := by
  rw [← prod_ite_nodup h p i c]
  congr 2; ext x; simp [and_comm]

theorem prod_map_mul' {α : Type} (L : List α) (f g : α → ℝ) :
    (L.map fun x => f x * g x).prod = (L.map f).prod * (L.map g).prod := by
  induction L with
  | nil => simp
  | cons a t ih => simp only [List.map_cons, List.prod_cons, ih]; ring

/-- factor of the "row and column" loop `for iy in range(k): W[ix,iy]*=c; W[iy,ix]*=c` -/
theorem fac_rowcol (k ix : ℕ) (c : ℝ) (i j : ℕ) :
    fac ((List.range k).flatMap fun iy => [⟨ix, iy, c⟩, ⟨iy, ix, c⟩]) i j
      = (if i = ix ∧ j < k then c else 1) * (if j = ix ∧ i < k then c else 1) := by
  rw [fac_flatMap]
  have : ∀ x, fac [⟨ix, x, c⟩, ⟨x, ix, c⟩] i j
      = (if i = ix ∧ j = x then c else 1) * (if i = x ∧ j = ix then c else 1) := by
    intro x; rw [fac_cons, fac_cons, fac_nil, mul_one]
  simp only [this]
  rw [prod_map_mul', prod_ite_nodup List.nodup_range, prod_ite_nodup' List.nodup_range]
  simp only [List.mem_range]

theorem nodup_pyRange (a b s : ℕ) (hs : 0 < s) : (pyRange a b s).Nodup := by
  unfold pyRange
  apply List.Nodup.map _ List.nodup_range
  intro x y h
  simp only at h
  have : s * x = s * y := by omega
  exact Nat.eq_of_mul_eq_mul_left hs this

theorem mem_pyRange_two (a b i : ℕ) : i ∈ pyRange a b 2 ↔ a ≤ i ∧ i < b ∧ (i - a) % 2 = 0 := by
  unfold pyRange
  rw [List.mem_map]
  constructor
  · rintro ⟨k, hk, rfl⟩
    have := List.mem_range.mp hk
    omega
  · rintro ⟨h1, h2, h3⟩
    refine ⟨(i - a) / 2, List.mem_range.mpr ?_, ?_⟩ <;> omega

theorem mem_pyRange_one (a b i : ℕ) : i ∈ pyRange a b 1 ↔ a ≤ i ∧ i < b := by
  unfold pyRange
  rw [List.mem_map]
  constructor
  · rintro ⟨k, hk, rfl⟩
    have := List.mem_range.mp hk
    omega
  · rintro ⟨h1, h2⟩
    refine ⟨i - a, List.mem_range.mpr ?_, ?_⟩ <;> omega

theorem prod_sep {L : List ℕ} (h : L.Nodup) (i j : ℕ) (c : ℝ) :
    (L.map fun ix => (if i = ix then c else 1) * (if j = ix then c else 1)).prod
      = (if i ∈ L then c else 1) * (if j ∈ L then c else 1) := by
  rw [prod_map_mul']
  have h1 := prod_ite_nodup h True i c
  have h2 := prod_ite_nodup h True j c
  simp only [true_and] at h1 h2
  rw [h1, h2]

open Classical in
/-- axis weights produced by `makeW_` -/
noncomputable def axisW (n i : ℕ) : ℝ :=
  if n % 2 = 0 then
    (if i ∈ pyRange 1 (n - 2) 2 then 4 else 1) * (if i ∈ pyRange 2 (n - 2) 2 then 2 else 1)
      * ((if i = n - 2 then 2.5 else 1) * (if i = n - 1 then 1.5 else 1))
  else (if i ∈ pyRange 1 (n - 1) 2 then 4 else 1) * (if i ∈ pyRange 2 (n - 1) 2 then 2 else 1)

theorem fac_loop_full (L : List ℕ) (hL : L.Nodup) (n i j : ℕ) (c : ℝ) (hi : i < n) (hj : j < n) :
    fac (L.flatMap fun ix => (List.range n).flatMap fun iy => [⟨ix, iy, c⟩, ⟨iy, ix, c⟩]) i j
      = (if i ∈ L then c else 1) * (if j ∈ L then c else 1) := by
  rw [fac_flatMap]
  simp only [fac_rowcol, hi, hj, and_true]
  exact prod_sep hL i j c

theorem fac_loop_split (L : List ℕ) (hL : L.Nodup) (n i j : ℕ) (c : ℝ) (hi : i < n) (hj : j < n)
    (hlt : ∀ x ∈ L, x < n - 1) :
    fac (L.flatMap fun ix => [⟨ix, n - 1, c⟩, ⟨n - 1, ix, c⟩] ++
      (List.range (n - 1)).flatMap fun iy => [⟨ix, iy, c⟩, ⟨iy, ix, c⟩]) i j
      = (if i ∈ L then c else 1) * (if j ∈ L then c else 1) := by
  rw [fac_flatMap, ← prod_sep hL i j c]
  congr 1
  apply List.map_congr_left
  intro x hx
  have hxn := hlt x hx
  rw [fac_append, fac_rowcol, fac_cons, fac_cons, fac_nil]
  simp only
  by_cases h1 : i = x <;> by_cases h2 : j = x <;> by_cases h3 : j = n - 1 <;>
    by_cases h4 : i = n - 1 <;> by_cases h5 : j < n - 1 <;> by_cases h6 : i < n - 1 <;>
    first
    | omega
    | (simp [h1, h2, h3, h4, h5, h6]; done)
    | (simp [h1, h2, h3, h4, h5, h6]; omega)
    | (simp_all)

theorem makeW_eq (n i j : ℕ) (hi : i < n) (hj : j < n) :
    makeW_ n i j = axisW n i * axisW n j := by
  unfold makeW_ makeWUpdates axisW
  rw [foldl_mulAt]
  by_cases h : n % 2 = 0
  · simp only [h, if_true]
    rw [fac_append, fac_append,
      fac_loop_split _ (nodup_pyRange _ _ _ (by norm_num)) n i j 4 hi hj
        (fun x hx => by rw [mem_pyRange_two] at hx; omega),
      fac_loop_split _ (nodup_pyRange _ _ _ (by norm_num)) n i j 2 hi hj
        (fun x hx => by rw [mem_pyRange_two] at hx; omega)]
    have : fac ((List.range n).flatMap fun ix =>
        [⟨ix, n - 2, 2.5⟩, ⟨ix, n - 1, 1.5⟩, ⟨n - 2, ix, 2.5⟩, ⟨n - 1, ix, 1.5⟩]) i j
        = (if j = n - 2 then 2.5 else 1) * (if j = n - 1 then 1.5 else 1)
          * (if i = n - 2 then 2.5 else 1) * (if i = n - 1 then 1.5 else 1) := by
      rw [fac_flatMap]
      have : ∀ x, fac [⟨x, n - 2, 2.5⟩, ⟨x, n - 1, 1.5⟩, ⟨n - 2, x, 2.5⟩, ⟨n - 1, x, 1.5⟩] i j
          = (((if i = x ∧ j = n - 2 then 2.5 else 1) * (if i = x ∧ j = n - 1 then 1.5 else 1))
            * (if i = n - 2 ∧ j = x then 2.5 else 1)) * (if i = n - 1 ∧ j = x then 1.5 else 1) := by
        intro x; simp only [fac_cons, fac_nil]; ring
      simp only [this]
      rw [prod_map_mul', prod_map_mul', prod_map_mul', prod_ite_nodup' List.nodup_range,
        prod_ite_nodup' List.nodup_range, prod_ite_nodup List.nodup_range,
        prod_ite_nodup List.nodup_range]
      simp only [List.mem_range, hi, hj, and_true]
    rw [this]; ring
  · simp only [h, if_false]
    rw [fac_append, fac_loop_full _ (nodup_pyRange _ _ _ (by norm_num)) n i j 4 hi hj,
      fac_loop_full _ (nodup_pyRange _ _ _ (by norm_num)) n i j 2 hi hj]
    ring

theorem makeH_eq (n i j : ℕ) (hi : i < n) (hj : j < n) :
    makeH_ n i j = trapzW n i * trapzW n j := by
  unfold makeH_ makeHUpdates trapzW
  rw [foldl_mulAt, fac_loop_full _ (nodup_pyRange _ _ _ (by norm_num)) n i j 2 hi hj]
  simp only [mem_pyRange_one, one_mul]

/-- triangle sum with product weights equals the full double sum, for symmetric `X` -/
theorem triSum_symm (n : ℕ) (W X : Mat) (w : ℕ → ℝ)
    (hW : ∀ i < n, ∀ j < n, W i j = w i * w j) (hX : ∀ i < n, ∀ j < n, X i j = X j i) :
    triSum n W X = ∑ i ∈ range n, ∑ j ∈ range n, w i * w j * X i j := by
  -- full sum = diagonal + upper + lower
  have key : ∀ Y : Mat, (∀ i < n, ∀ j < n, Y i j = Y j i) →
      ∑ i ∈ range n, ∑ j ∈ range n, Y i j
        = ∑ i ∈ range n, (Y i i + ∑ j ∈ Ico (i + 1) n, 2 * Y i j) := by
    intro Y hY
    have hsplit : ∀ i ∈ range n, ∑ j ∈ range n, Y i j
        = ∑ j ∈ range i, Y i j + (Y i i + ∑ j ∈ Ico (i + 1) n, Y i j) := by
      intro i hi
      have hin := mem_range.mp hi
      rw [← sum_range_add_sum_Ico (fun j => Y i j) hin.le, sum_eq_sum_Ico_succ_bot hin]
    rw [sum_congr rfl hsplit, sum_add_distrib]
    have hlow : ∑ i ∈ range n, ∑ j ∈ range i, Y i j
        = ∑ i ∈ range n, ∑ j ∈ Ico (i + 1) n, Y i j := by
      rw [sum_sigma', sum_sigma']
      refine sum_bij' (fun p _ => ⟨p.2, p.1⟩) (fun p _ => ⟨p.2, p.1⟩) ?_ ?_ ?_ ?_ ?_
      · rintro ⟨a, b⟩ h; simp only [mem_sigma, mem_range, mem_Ico] at *; omega
      · rintro ⟨a, b⟩ h; simp only [mem_sigma, mem_range, mem_Ico] at *; omega
      · rintro ⟨a, b⟩ h; rfl
      · rintro ⟨a, b⟩ h; rfl
      · rintro ⟨a, b⟩ h
        simp only [mem_sigma, mem_range] at h
        exact hY a h.1 b (by omega)
    rw [hlow, ← sum_add_distrib]
    apply sum_congr rfl; intro i hi
    rw [← mul_sum]; ring
  rw [key (fun i j => w i * w j * X i j)
    (fun i hi j hj => by rw [hX i hi j hj]; ring)]
  unfold triSum
  apply sum_congr rfl; intro i hi
  have hin := mem_range.mp hi
  rw [hW i hin i hin]
  congr 1
  apply sum_congr rfl; intro j hj
  have hjn := (mem_Ico.mp hj).2
  rw [hW i hin j hjn]; ring

/-- the triangle sum only reads the upper triangle -/
theorem triSum_congr (n : ℕ) (W X Y : Mat) (h : ∀ i < n, ∀ j < n, i ≤ j → X i j = Y i j) :
    triSum n W X = triSum n W Y := by
  unfold triSum
  apply sum_congr rfl; intro i hi
  have hin := mem_range.mp hi
  rw [h i hin i hin le_rfl]
  congr 1
  apply sum_congr rfl; intro j hj
  have := mem_Ico.mp hj
  rw [h i hin j this.2 (by omega)]

/-- open-ended Simpson weights `1,4,2,4,2,…` -/
def openW (i : ℕ) : ℝ := if i = 0 then 1 else if i % 2 = 1 then 4 else 2

theorem openW_sum (b : ℕ) (y : ℕ → ℝ) :
    ∑ i ∈ range (2 * (b + 1) + 1), openW i * y i
      = (∑ i ∈ range (b + 1), (y (2 * i) + 4 * y (2 * i + 1) + y (2 * i + 2))) + y (2 * (b + 1)) := by
  induction b with
  | zero => simp [sum_range_succ, openW]; ring
  | succ b ih =>
    rw [show 2 * (b + 1 + 1) + 1 = (2 * (b + 1) + 1) + 1 + 1 by ring, sum_range_succ,
      sum_range_succ, ih, sum_range_succ _ (b + 1)]
    have h1 : openW (2 * (b + 1) + 1) = 4 := by
      unfold openW; rw [if_neg (by omega), if_pos (by omega)]
    have h2 : openW (2 * (b + 1) + 1 + 1) = 2 := by
      unfold openW; rw [if_neg (by omega), if_neg (by omega)]
    rw [h1, h2]
    have e : 2 * (b + 1 + 1) = 2 * (b + 1) + 1 + 1 := by ring
    rw [e]; ring_nf

theorem axisW_odd_sum (b : ℕ) (y : ℕ → ℝ) (dx : ℝ) :
    dx / 3 * ∑ i ∈ range (2 * (b + 1) + 1), axisW (2 * (b + 1) + 1) i * y i
      = basicSimpson (b + 1) dx y := by
  unfold basicSimpson
  congr 1
  rw [sum_range_succ]
  have h1 : ∀ i ∈ range (2 * (b + 1)), axisW (2 * (b + 1) + 1) i * y i = openW i * y i := by
    intro i hi
    have := mem_range.mp hi
    congr 1
    unfold axisW openW
    rw [if_neg (by omega)]
    simp only [mem_pyRange_two]
    by_cases h0 : i = 0
    · subst h0; simp
    · by_cases h2 : i % 2 = 1
      · rw [if_pos (by omega), if_neg (by omega), if_neg h0, if_pos h2]; ring
      · rw [if_neg (by omega), if_pos (by omega), if_neg h0, if_neg h2]; ring
  have h2 : axisW (2 * (b + 1) + 1) (2 * (b + 1)) = 1 := by
    unfold axisW
    rw [if_neg (by omega)]
    simp only [mem_pyRange_two]
    rw [if_neg (by omega), if_neg (by omega)]; ring
  have h3 : openW (2 * (b + 1)) = 2 := by
    unfold openW; rw [if_neg (by omega), if_neg (by omega)]
  have h4 := openW_sum b y
  rw [sum_range_succ, h3] at h4
  rw [sum_congr rfl h1, h2]
  linarith

theorem axisW_even_sum (b : ℕ) (y : ℕ → ℝ) (dx : ℝ) :
    dx / 3 * ∑ i ∈ range (2 * b + 4), axisW (2 * b + 4) i * y i
      = basicSimpson (b + 1) dx y + dx * (y (2 * b + 2) + y (2 * b + 3)) / 2 := by
  unfold basicSimpson
  rw [show 2 * b + 4 = 2 * b + 2 + 1 + 1 by ring, sum_range_succ, sum_range_succ]
  have h1 : ∀ i ∈ range (2 * b + 2), axisW (2 * b + 2 + 1 + 1) i * y i = openW i * y i := by
    intro i hi
    have := mem_range.mp hi
    congr 1
    unfold axisW openW
    rw [if_pos (by omega)]
    simp only [mem_pyRange_two]
    rw [if_neg (by omega : ¬ i = 2 * b + 2 + 1 + 1 - 2),
      if_neg (by omega : ¬ i = 2 * b + 2 + 1 + 1 - 1)]
    by_cases h0 : i = 0
    · subst h0; simp
    · by_cases h2 : i % 2 = 1
      · rw [if_pos (by omega), if_neg (by omega), if_neg h0, if_pos h2]; ring
      · rw [if_neg (by omega), if_pos (by omega), if_neg h0, if_neg h2]; ring
  have h2 : axisW (2 * b + 2 + 1 + 1) (2 * b + 2) = 5 / 2 := by
    unfold axisW
    rw [if_pos (by omega)]
    simp only [mem_pyRange_two]
    rw [if_neg (by omega), if_neg (by omega), if_pos (by omega), if_neg (by omega)]; norm_num
  have h3 : axisW (2 * b + 2 + 1 + 1) (2 * b + 2 + 1) = 3 / 2 := by
    unfold axisW
    rw [if_pos (by omega)]
    simp only [mem_pyRange_two]
    rw [if_neg (by omega), if_neg (by omega), if_neg (by omega), if_pos (by omega)]; norm_num
  have h4 : openW (2 * b + 2) = 2 := by
    unfold openW; rw [if_neg (by omega), if_neg (by omega)]
  have h5 := openW_sum b y
  rw [show 2 * (b + 1) + 1 = 2 * b + 2 + 1 by ring, show 2 * (b + 1) = 2 * b + 2 by ring,
    sum_range_succ, h4] at h5
  rw [sum_congr rfl h1, h2, h3]
  have : ∑ i ∈ range (2 * b + 2), openW i * y i
      = ∑ i ∈ range (b + 1), (y (2 * i) + 4 * y (2 * i + 1) + y (2 * i + 2)) - y (2 * b + 2) := by
    linarith
  rw [this]; ring

theorem trapzW_sum (n : ℕ) (hn : 2 ≤ n) (y : ℕ → ℝ) (dx : ℝ) :
    dx / 2 * ∑ i ∈ range n, trapzW n i * y i = trapzDx n dx y := by
  obtain ⟨k, rfl⟩ : ∃ k, n = k + 2 := ⟨n - 2, by omega⟩
  -- open-ended weights
  have hopen : ∀ k, ∑ i ∈ range (k + 1), (if i = 0 then (1:ℝ) else 2) * y i
      = (∑ i ∈ range k, (y i + y (i + 1))) + y k := by
    intro k
    induction k with
    | zero => simp
    | succ k ih =>
      rw [sum_range_succ, ih, sum_range_succ _ k]; simp; ring
  unfold trapzDx
  rw [sum_range_succ]
  have h1 : ∀ i ∈ range (k + 1), trapzW (k + 2) i * y i = (if i = 0 then (1:ℝ) else 2) * y i := by
    intro i hi
    have := mem_range.mp hi
    congr 1
    unfold trapzW
    by_cases h0 : i = 0
    · subst h0; simp
    · rw [if_pos (by omega), if_neg h0]
  have h2 : trapzW (k + 2) (k + 1) = 1 := by unfold trapzW; rw [if_neg (by omega)]
  rw [sum_congr rfl h1, hopen, h2]
  rw [show k + 2 - 1 = k + 1 by omega, sum_range_succ _ k]
  have : ∑ x ∈ range k, dx * (y x + y (x + 1)) / 2
      = dx / 2 * ∑ i ∈ range k, (y i + y (i + 1)) := by
    rw [mul_sum]; apply sum_congr rfl; intros; ring
  rw [this]; ring

theorem trapzDx_nonneg' {n : ℕ} {dx : ℝ} {f : ℕ → ℝ} (hdx : 0 ≤ dx) (h : ∀ i < n, 0 ≤ f i) :
    0 ≤ trapzDx n dx f := by
  unfold trapzDx
  apply sum_nonneg; intro i hi
  have := mem_range.mp hi
  have := h i (by omega); have := h (i + 1) (by omega)
  positivity

end Halomod.Exclusion
