import Verif.Model.Batch
import Verif.Props.Profiles2
import Verif.Props.Concentration

/-!
# C73: one halo at a time

An array of masses gives, entry by entry, what each mass gives on its own; a plain number gives what the array with that one entry gives.
The right-hand sides are the functions of one mass in `Model/Hod.lean`, `Model/Bias.lean` and `Model/Profiles.lean`.
-/
namespace Halomod.Batch

open Halomod.HOD

/-- The method `g`, called with `a`, returns without raising, and what it returns is, broadcast to the entries of `a`, the value of `f` at every entry. -/
def Is (g : Method) (f : ℝ → ℝ) (a : Arg) : Prop :=
  ∃ r, g a = .ok r ∧ r.bc a.entries.length = some (a.entries.map f)

/-- Every public method of the HOD on `a` is the function of one mass at every entry of `a`. -/
structure HodA.Is (A : HodA) (h : Hod) (a : Arg) : Prop where
  nc : Batch.Is A.nc h.nc a
  ns : Batch.Is A.ns h.ns a
  cenOcc : Batch.Is A.cenOcc h.cenOcc a
  satOcc : Batch.Is A.satOcc h.satOcc a
  ssPairs : Batch.Is A.ssPairs h.ssPairs a
  csPairs : Batch.Is A.csPairs h.csPairs a
  sigmaSat : Batch.Is A.sigmaSat h.sigmaSat a
  sigmaCen : Batch.Is A.sigmaCen h.sigmaCen a
  totalOcc : Batch.Is A.totalOcc h.totalOcc a
  totalPairs : Batch.Is A.totalPairs h.totalPairs a

/-! ## Broadcasting -/

theorem bc_arr {l v : List ℝ} {n : ℕ} (h : (Arg.arr l).bc n = some v) : (l.length = n ∧ v = l) ∨ (∃ x, l = [x] ∧ v = List.replicate n x) := by
  unfold Arg.bc at h
  by_cases hl : l.length = n
  · simp only [hl, if_true, Option.some.injEq] at h
    exact .inl ⟨hl, h.symm⟩
  · simp only [hl, if_false] at h
    split at h
    · simp only [Option.some.injEq] at h
      exact .inr ⟨_, rfl, h.symm⟩
    · exact absurd h (by simp)

theorem bc_length {a : Arg} {n : ℕ} {v : List ℝ} (h : a.bc n = some v) : v.length = n := by
  cases a with
  | arr l => rcases bc_arr h with ⟨h1, rfl⟩ | ⟨x, -, rfl⟩ <;> simp [*]
  | _ => simp only [Arg.bc, Option.some.injEq] at h; simp [← h]

theorem arr_bc_one (x : ℝ) (n : ℕ) : (Arg.arr [x]).bc n = some (List.replicate n x) := by
  by_cases h : [x].length = n
  · subst h; rfl
  · simp only [Arg.bc, h, if_false]

theorem arr_bc_self (l : List ℝ) : (Arg.arr l).bc l.length = some l := by
  simp only [Arg.bc, if_true]

theorem bc_map (f : ℝ → ℝ) {l v : List ℝ} {n : ℕ} (h : (Arg.arr l).bc n = some v) : (Arg.arr (l.map f)).bc n = some (v.map f) := by
  rcases bc_arr h with ⟨rfl, rfl⟩ | ⟨x, rfl, rfl⟩
  · rw [← List.length_map (f := f) (as := v)]; exact arr_bc_self _
  · rw [List.map_replicate]; exact arr_bc_one _ _

theorem bc_ar (f : ℝ → ℝ) {a : Arg} {n : ℕ} {v : List ℝ} (h : a.bc n = some v) : (ar f a).bc n = some (v.map f) := by
  cases a with
  | arr l => exact bc_map f h
  | _ => simp only [Arg.bc, Option.some.injEq] at h; simp [← h, ar, Arg.bc]

theorem bc_uf (f : ℝ → ℝ) {a : Arg} {n : ℕ} {v : List ℝ} (h : a.bc n = some v) : (uf f a).bc n = some (v.map f) := by
  cases a with
  | arr l => exact bc_map f h
  | _ => simp only [Arg.bc, Option.some.injEq] at h; simp [← h, uf, Arg.bc]

theorem zip_rep_left (f : ℝ → ℝ → ℝ) (x : ℝ) (l : List ℝ) : List.zipWith f (List.replicate l.length x) l = l.map (f x) := by
  induction l with
  | nil => rfl
  | cons a l ih => simpa [List.replicate_succ] using ih

theorem zip_rep_right (f : ℝ → ℝ → ℝ) (y : ℝ) (l : List ℝ) : List.zipWith f l (List.replicate l.length y) = l.map (f · y) := by
  induction l with
  | nil => rfl
  | cons a l ih => simpa [List.replicate_succ] using ih

theorem zip_rep (f : ℝ → ℝ → ℝ) (x y : ℝ) (n : ℕ) : List.zipWith f (List.replicate n x) (List.replicate n y) = List.replicate n (f x y) := by
  simp

theorem op2_arr (f : ℝ → ℝ → ℝ) {l l' v w : List ℝ} {n : ℕ} (h : (Arg.arr l).bc n = some v) (h' : (Arg.arr l').bc n = some w) :
    ∃ r, op2 f (.arr l) (.arr l') = .ok r ∧ r.bc n = some (List.zipWith f v w) := by
  rcases bc_arr h with ⟨rfl, rfl⟩ | ⟨x, rfl, rfl⟩
  · rcases bc_arr h' with ⟨e, rfl⟩ | ⟨y, rfl, rfl⟩
    · refine ⟨.arr (List.zipWith f v w), by simp only [op2, e, if_true], ?_⟩
      have : (List.zipWith f v w).length = v.length := by simp [e]
      rw [← this]; exact arr_bc_self _
    · rw [zip_rep_right]
      match v with
      | [a] => exact ⟨.arr [f a y], by simp [op2], arr_bc_one _ _⟩
      | [] => exact ⟨.arr [], by simp [op2], arr_bc_self _⟩
      | a :: b :: t =>
        refine ⟨.arr ((a :: b :: t).map (f · y)), by simp [op2], ?_⟩
        rw [← List.length_map (f := (f · y)) (as := a :: b :: t)]; exact arr_bc_self _
  · rcases bc_arr h' with ⟨rfl, rfl⟩ | ⟨y, rfl, rfl⟩
    · rw [zip_rep_left]
      match w with
      | [a] => exact ⟨.arr [f x a], by simp [op2], arr_bc_one _ _⟩
      | [] => exact ⟨.arr [], by simp [op2], arr_bc_self _⟩
      | a :: b :: t =>
        refine ⟨.arr ((a :: b :: t).map (f x)), by simp [op2], ?_⟩
        rw [← List.length_map (f := (f x)) (as := a :: b :: t)]; exact arr_bc_self _
    · rw [zip_rep]
      exact ⟨.arr [f x y], by simp [op2], arr_bc_one _ _⟩

theorem bc_op2 (f : ℝ → ℝ → ℝ) {a b : Arg} {n : ℕ} {v w : List ℝ} (ha : a.bc n = some v) (hb : b.bc n = some w) :
    ∃ r, op2 f a b = .ok r ∧ r.bc n = some (List.zipWith f v w) := by
  have hv := bc_length ha
  have hw := bc_length hb
  have right : ∀ (l : List ℝ) (y : ℝ), (Arg.arr l).bc n = some v → w = List.replicate n y →
      (Arg.arr (l.map (f · y))).bc n = some (List.zipWith f v w) := by
    intro l y h1 h2
    rw [h2, ← hv, zip_rep_right, hv]; exact bc_map _ h1
  have left : ∀ (l : List ℝ) (x : ℝ), (Arg.arr l).bc n = some w → v = List.replicate n x →
      (Arg.arr (l.map (f x))).bc n = some (List.zipWith f v w) := by
    intro l x h1 h2
    rw [h2, ← hw, zip_rep_left, hw]; exact bc_map _ h1
  cases a with
  | arr l =>
    cases b with
    | arr l' => exact op2_arr f ha hb
    | _ => simp only [Arg.bc, Option.some.injEq] at hb; exact ⟨_, rfl, right l _ ha hb.symm⟩
  | _ =>
    simp only [Arg.bc, Option.some.injEq] at ha
    cases b with
    | arr l' => exact ⟨_, rfl, left l' _ hb ha.symm⟩
    | _ => simp only [Arg.bc, Option.some.injEq] at hb; exact ⟨_, rfl, by simp [Arg.bc, ← ha, ← hb]⟩

/-! ## Combining methods -/

theorem bc_entries (a : Arg) : a.bc a.entries.length = some a.entries := by
  cases a with
  | arr l => exact arr_bc_self l
  | _ => rfl

theorem is_ar (f : ℝ → ℝ) (a : Arg) : Is (fun m => .ok (ar f m)) f a := ⟨_, rfl, bc_ar f (bc_entries a)⟩
theorem is_uf (f : ℝ → ℝ) (a : Arg) : Is (fun m => .ok (uf f m)) f a := ⟨_, rfl, bc_uf f (bc_entries a)⟩

theorem is_const (c : ℝ) (a : Arg) : Is (fun _ => .ok (.py c)) (fun _ => c) a :=
  ⟨_, rfl, by simp [Arg.bc, List.map_const']⟩

theorem is_then_ar (k : ℝ → ℝ) {g : Method} {f : ℝ → ℝ} {a : Arg} (h : Is g f a) : Is (fun m => do return ar k (← g m)) (fun x => k (f x)) a := by
  obtain ⟨r, e, hr⟩ := h
  exact ⟨ar k r, by simp [e, bind, Except.bind, pure, Except.pure], by rw [bc_ar k hr, List.map_map]; rfl⟩

theorem is_then_uf (k : ℝ → ℝ) {g : Method} {f : ℝ → ℝ} {a : Arg} (h : Is g f a) : Is (fun m => do return uf k (← g m)) (fun x => k (f x)) a := by
  obtain ⟨r, e, hr⟩ := h
  exact ⟨uf k r, by simp [e, bind, Except.bind, pure, Except.pure], by rw [bc_uf k hr, List.map_map]; rfl⟩

theorem is_op2 (k : ℝ → ℝ → ℝ) {g g' : Method} {f f' : ℝ → ℝ} {a : Arg} (h : Is g f a) (h' : Is g' f' a) :
    Is (fun m => do op2 k (← g m) (← g' m)) (fun x => k (f x) (f' x)) a := by
  obtain ⟨r, e, hr⟩ := h
  obtain ⟨r', e', hr'⟩ := h'
  obtain ⟨s, es, hs⟩ := bc_op2 k hr hr'
  refine ⟨s, by simpa [e, e', bind, Except.bind] using es, ?_⟩
  rw [hs, List.zipWith_map]; simp

theorem Is.congr {g : Method} {f f' : ℝ → ℝ} {a : Arg} (h : Is g f a) (e : ∀ x ∈ a.entries, f x = f' x) : Is g f' a := by
  obtain ⟨r, er, hr⟩ := h
  exact ⟨r, er, by rw [hr, List.map_congr_left e]⟩

theorem Is.congr_method {g g' : Method} {f : ℝ → ℝ} {a : Arg} (h : Is g f a) (e : g a = g' a) : Is g' f a := by
  obtain ⟨r, er, hr⟩ := h
  exact ⟨r, by rw [← e, er], hr⟩

/-! ## Masks -/

theorem put_mask {α : Type} (p : α → Bool) (f g : α → ℝ) (l : List α) :
    put (l.map g) (l.map p) ((l.filter p).map f) = l.map fun x => if p x then f x else g x := by
  induction l with
  | nil => rfl
  | cons x l ih =>
    by_cases h : p x = true
    · simp [h, put, ih]
    · rw [Bool.not_eq_true] at h
      simp [h, put, ih]

theorem pick_mask (p : ℝ → Bool) (l : List ℝ) : pick l (l.map p) = l.filter p := by
  induction l with
  | nil => rfl
  | cons x l ih => by_cases h : p x = true <;> simp [h, pick, ih]

theorem count_mask (p : ℝ → Bool) (l : List ℝ) : (l.map p).count true = (l.filter p).length := by
  induction l with
  | nil => rfl
  | cons x l ih =>
    by_cases h : p x = true
    · simp [h, ih]
    · rw [Bool.not_eq_true] at h; simp [h, ih]

theorem like_arr (c : ℝ) (l : List ℝ) : like c (.arr l) = .arr (l.map fun _ => c) := by
  simp [like, List.map_const']

/-- writing a constant where a condition holds. -/
theorem is_set_const (p : ℝ → Prop) [inst : DecidablePred p] (c d : ℝ) (a : Arg) :
    Is (fun m => set (like c m) (cmp p m) (.py d)) (fun x => if p x then d else c) a := by
  obtain rfl : inst = fun x => Classical.propDecidable (p x) := Subsingleton.elim _ _
  classical
  have one : ∀ x : ℝ, Arg.bc (.arr0 ((put [c] [decide (p x)] (List.replicate (if decide (p x) then 1 else 0) d)).headD c)) 1
      = some [if p x then d else c] := by
    intro x
    by_cases h : p x <;> simp [Arg.bc, put, h]
  cases a with
  | arr l =>
    refine ⟨.arr (l.map fun x => if p x then d else c), ?_, ?_⟩
    · beta_reduce
      rw [like_arr]
      simp only [set, cmp, List.length_map, if_true, Arg.bc, count_mask]
      have e : List.replicate (l.filter fun x => decide (p x)).length d = (l.filter fun x => decide (p x)).map fun _ => d := by simp [List.map_const']
      rw [e, put_mask]
      simp
    · have := arr_bc_self (l.map fun x => if p x then d else c)
      rwa [List.length_map] at this
  | _ x => exact ⟨_, rfl, one x⟩

/-- writing a function of the selected masses into the selection; a Python number cannot be selected from. -/
theorem is_set_sel (p : ℝ → Prop) [inst : DecidablePred p] (c : ℝ) (f : ℝ → ℝ) (a : Arg) (ha : ∀ x, a ≠ .py x) :
    Is (fun m => do
      let sel ← get m (cmp p m)
      set (like c m) (cmp p m) (ar f sel)) (fun x => if p x then f x else c) a := by
  obtain rfl : inst = fun x => Classical.propDecidable (p x) := Subsingleton.elim _ _
  classical
  have one : ∀ x : ℝ, ∃ r, (do
      let sel ← (.ok (.arr (if decide (p x) then [x] else [])) : Except Err Arg)
      set (.arr0 c) (.one (decide (p x))) (ar f sel)) = .ok r ∧ Arg.bc r 1 = some [if p x then f x else c] := by
    intro x
    by_cases h : p x
    · exact ⟨.arr0 (f x), by simp [h, bind, Except.bind, set, ar, Arg.bc, put], by simp [Arg.bc, h]⟩
    · exact ⟨.arr0 c, by simp [h, bind, Except.bind, set, ar, Arg.bc, put], by simp [Arg.bc, h]⟩
  cases a with
  | arr l =>
    refine ⟨.arr (l.map fun x => if p x then f x else c), ?_, ?_⟩
    · beta_reduce
      rw [like_arr]
      simp only [get, set, cmp, List.length_map, if_true, pick_mask, bind, Except.bind, ar, count_mask, Arg.bc]
      rw [put_mask]
      simp
    · have := arr_bc_self (l.map fun x => if p x then f x else c)
      rwa [List.length_map] at this
  | py x => exact absurd rfl (ha x)
  | _ x =>
    obtain ⟨r, e, h⟩ := one x
    exact ⟨r, e, h⟩

theorem is_where (p : ℝ → Prop) [inst : DecidablePred p] (f : ℝ → ℝ) (c : ℝ) (a : Arg) :
    Is (fun m => .ok (where_ p f c m)) (fun x => if p x then f x else c) a := by
  obtain rfl : inst = fun x => Classical.propDecidable (p x) := Subsingleton.elim _ _
  classical
  cases a with
  | arr l =>
    refine ⟨.arr (l.map fun x => if p x then f x else c), ?_, ?_⟩
    · simp only [where_]
    · have := arr_bc_self (l.map fun x => if p x then f x else c)
      rwa [List.length_map] at this
  | _ x => exact ⟨_, rfl, by by_cases h : p x <;> simp [where_, Arg.bc, h, Arg.entries]⟩

theorem is_like (c : ℝ) (k : ℝ → ℝ) (a : Arg) : Is (fun m => .ok (ar k (like c m))) (fun _ => k c) a := by
  cases a with
  | arr l =>
    refine ⟨.arr (l.map fun _ => k c), by simp [like_arr, ar], ?_⟩
    have := arr_bc_self (l.map fun _ => k c)
    rwa [List.length_map] at this
  | _ x => exact ⟨_, rfl, by simp [ar, like, Arg.bc, Arg.entries]⟩

/-! ## The classes -/

theorem totals {A : HodA} {h : Hod} {a : Arg} (h1 : Is A.nc h.nc a) (h2 : Is A.ns h.ns a) (h3 : Is A.cenOcc h.cenOcc a) (h4 : Is A.satOcc h.satOcc a)
    (h5 : Is A.ssPairs h.ssPairs a) (h6 : Is A.csPairs h.csPairs a) (h7 : Is A.sigmaSat h.sigmaSat a) (h8 : Is A.sigmaCen h.sigmaCen a) : A.Is h a :=
  ⟨h1, h2, h3, h4, h5, h6, h7, h8, is_op2 (· + ·) h3 h4, is_op2 (· + ·) h5 h6⟩

theorem sat_is (d : PoissonA) (D : PoissonDef) (hi : d.inherent = D.inherent) (central : Bool) (a : Arg) (hc : Is d.cen D.cen a) (hs : Is d.sat D.sat a)
    (ht : Is d.tpc D.tpc a) : Is (poissonA d central).satOcc (poisson D central).satOcc a := by
  simp only [poissonA, poisson]
  by_cases h : (central && !D.inherent) = true
  · refine ((is_op2 (· * ·) (is_op2 (· / ·) hc ht) hs).congr_method ?_).congr fun x _ => ?_
    · rw [hi, if_pos h]
    · simp only [satelliteOccupation, if_pos h]
  · refine (hs.congr_method ?_).congr fun x _ => ?_
    · rw [hi, if_neg h]
    · simp only [satelliteOccupation, if_neg h]

theorem poissonA_is (d : PoissonA) (D : PoissonDef) (hi : d.inherent = D.inherent) (central : Bool) (a : Arg) (hc : Is d.cen D.cen a) (hs : Is d.sat D.sat a)
    (ht : Is d.tpc D.tpc a) (hts : Is d.tps D.tps a) (hg : Is d.sigC D.sigC a) : (poissonA d central).Is (poisson D central) a := by
  have hsat := sat_is d D hi central a hc hs ht
  refine totals (is_op2 (· / ·) hc ht) (is_op2 (· / ·) hsat hts) hc hsat (is_then_ar (· ^ 2) hsat) ?_ (is_then_uf Real.sqrt hsat) hg
  simp only [poissonA, poisson]
  cases central
  · simp only [Bool.false_eq_true, if_false]
    exact is_op2 (· * ·) hc hsat
  · simp only [if_true]
    exact is_op2 (· * ·) hsat ht

theorem poissonA_default (d : PoissonA) (D : PoissonDef) (hi : d.inherent = D.inherent) (central : Bool) (a : Arg) (hc : Is d.cen D.cen a) (hs : Is d.sat D.sat a)
    (h1 : d.tpc = fun _ => .ok (.py 1)) (h1' : d.tps = fun _ => .ok (.py 1)) (h2 : D.tpc = fun _ => 1) (h2' : D.tps = fun _ => 1)
    (h3 : d.sigC = fun m => do return uf (fun co => Real.sqrt (co * (1 - co))) (← d.cen m)) (h3' : D.sigC = fun m => Real.sqrt (D.cen m * (1 - D.cen m))) :
    (poissonA d central).Is (poisson D central) a :=
  poissonA_is d D hi central a hc hs (by rw [h1, h2]; exact is_const 1 a) (by rw [h1', h2']; exact is_const 1 a)
    (by rw [h3, h3']; exact is_then_uf (fun co => Real.sqrt (co * (1 - co))) hc)

theorem bulkA_is (sharp : Bool) (satA sigA : Method) (sat sig : ℝ → ℝ) (mmin : ℝ) (central : Bool) (a : Arg) (hs : Is satA sat a) (hg : Is sigA sig a) :
    (bulkA satA sigA).Is (bulk sharp sat sig mmin central) a := by
  have e : (bulk sharp sat sig mmin central).satOcc = sat := by
    funext m; simp [bulk, satelliteOccupation]
  refine totals (is_const 0 a) (is_const 0 a) (is_const 0 a) (by rw [e]; exact hs) ?_ (is_const 0 a) hg (is_const 0 a)
  have e2 : (bulk sharp sat sig mmin central).ssPairs = fun m => sat m ^ 2 := by
    funext m; simp [bulk, satelliteOccupation]
  rw [e2]
  exact is_then_ar (· ^ 2) hs

theorem zehaviCen_is (M : ℝ) (a : Arg) : Is (zehaviCenA M) (zehaviCen M) a := is_set_const (· < 10 ^ M) 1 0 a

theorem zehaviMaxCen_is (M M' : ℝ) (a : Arg) : Is (zehaviMaxCenA M M') (zehaviMaxCen M M') a :=
  is_set_const (fun x => x ≥ 10 ^ M ∧ x ≤ 10 ^ M') 0 1 a

theorem expQuot_is (A c : ℝ) (a : Arg) (h : ∀ x, a = .py x → x ≠ c) :
    Is (fun m => expQuot A (ar (· - c) m)) (fun x => if x = c then 0 else Real.exp (-A / (x - c))) a := by
  have key : Is (fun m => .ok (uf (fun x => if x = 0 then 0 else Real.exp (-A / x)) (ar (· - c) m)))
      (fun x => if x = c then 0 else Real.exp (-A / (x - c))) a := by
    refine ⟨_, rfl, ?_⟩
    rw [bc_uf _ (bc_ar (· - c) (bc_entries a)), List.map_map]
    congr 1
    refine List.map_congr_left fun x _ => ?_
    simp only [Function.comp, sub_eq_zero]
  cases a with
  | py x =>
    have hx : x - c ≠ 0 := sub_ne_zero.2 (h x rfl)
    refine key.congr_method ?_
    simp [ar, uf, expQuot, hx]
  | _ => exact key.congr_method rfl

theorem tinkerSat_is (p : TinkerP) (a : Arg) (h : ∀ x, a = .py x → x ≠ 10 ^ p.M_min) : Is (tinkerSatA p) (tinkerSat p) a := by
  obtain ⟨o, eo, ho⟩ := zehaviCen_is p.M_min a
  obtain ⟨e, ee, he⟩ := expQuot_is (10 ^ p.M_cut) (10 ^ p.M_min) a h
  obtain ⟨t, et, ht⟩ := bc_op2 (· * ·) ho he
  obtain ⟨r, er, hr⟩ := bc_op2 (· * ·) ht (bc_ar (· / 10 ^ p.M_1) (bc_entries a))
  refine ⟨r, ?_, ?_⟩
  · simp only [tinkerSatA, eo, bind, Except.bind]
    beta_reduce at ee
    rw [ee]
    simp only [et, er]
  · rw [hr, List.zipWith_map, List.zipWith_self, List.zipWith_map, List.zipWith_self]
    congr 1
    refine List.map_congr_left fun x _ => ?_
    by_cases hx : x = 10 ^ p.M_min <;> simp [tinkerSat, hx]

theorem spinelliSat_is (p : SpinelliP) (a : Arg) : Is (spinelliSatA p) (spinelliSat p) a := by
  obtain ⟨o, eo, ho⟩ := is_set_const (· ≥ 10 ^ 11) 0 1 a
  obtain ⟨r, er, hr⟩ := bc_op2 (· * ·) (bc_uf (fun x => 10 ^ p.M_0 * (x / 10 ^ p.M_break_sat) ^ p.beta_sat * Real.exp (-((10 ^ p.M_break_sat / x) ^ p.alpha_sat)))
    (bc_entries a)) ho
  refine ⟨r, ?_, ?_⟩
  · simp only [spinelliSatA, bind, Except.bind]
    beta_reduce at eo
    rw [eo]
    exact er
  · rw [hr, List.zipWith_map]
    simp only [List.zipWith_self]
    rfl

theorem spinelliTpc_is (p : SpinelliP) (a : Arg) : Is (spinelliTpcA p) (spinelliTpc p) a := is_set_const _ 0 1 a

theorem spinelliTps_is (p : SpinelliP) (a : Arg) (h : ∀ x, a ≠ .py x) : Is (spinelliTpsA p) (spinelliTps p) a :=
  is_set_sel _ 0 (fun x => (x / 10 ^ p.M_1_counts) ^ p.alpha_counts) a h

theorem zhengSat_is (p : ZhengP) (a : Arg) (h : ∀ x, a ≠ .py x) : Is (zhengSatA p) (zhengSat p) a :=
  is_set_sel _ 0 (fun x => ((x - 10 ^ p.M_0) / 10 ^ p.M_1) ^ p.alpha) a h

theorem leauthaudCen_is (i : List (ℝ × ℝ) → ℝ → ℝ) (p : LeauthaudP) (l : List ℝ) : Is (leauthaudCenA i p) (leauthaudCen i p) (.arr l) := by
  have h : Is (stellarA i p) (p.meanLogStellarMass i) (.arr l) :=
    ⟨_, rfl, bc_map _ (arr_bc_self l)⟩
  exact is_then_uf (fun s => 0.5 * (1 - erf ((p.sm_thresh - s) / (Real.sqrt 2 * p.sig_logmstar)))) h

theorem leauthaudSat_is (i : List (ℝ × ℝ) → ℝ → ℝ) (p : LeauthaudP) (l : List ℝ) : Is (leauthaudSatA i p) (leauthaudSat i p) (.arr l) :=
  is_op2 (· * ·) (is_uf _ _) (leauthaudCen_is i p l)

/-- What each class needs of its argument: `Zheng05` and `Spinelli19` no Python number, `Tinker05` not the Python number `10**M_min`, `Leauthaud11` an array with
a length, the others nothing. -/
def Accepts : HodInst → Arg → Prop
  | .zheng05 _, a => ∀ x, a ≠ .py x
  | .spinelli19 _, a => ∀ x, a ≠ .py x
  | .tinker05 p, a => ∀ x, a = .py x → x ≠ 10 ^ p.M_min
  | .leauthaud11 _ _, a => ∃ l, a = .arr l
  | _, _ => True

theorem hod_is (i : HodInst) (central : Bool) (a : Arg) (h : Accepts i a) : (mkA i central).Is (i.mk central) a := by
  cases i with
  | zehavi05 p => exact poissonA_default _ _ rfl _ _ (zehaviCen_is _ _) (is_ar _ _) rfl rfl rfl rfl rfl rfl
  | zheng05 p => exact poissonA_default _ _ rfl _ _ (is_uf _ _) (zhengSat_is _ _ h) rfl rfl rfl rfl rfl rfl
  | contreras13 p => exact poissonA_default _ _ rfl _ _ (is_uf _ _) (is_uf _ _) rfl rfl rfl rfl rfl rfl
  | tinker05 p => exact poissonA_default _ _ rfl _ _ (zehaviCen_is _ _) (tinkerSat_is _ _ h) rfl rfl rfl rfl rfl rfl
  | zehavi05WithMax p => exact poissonA_default _ _ rfl _ _ (zehaviMaxCen_is _ _ _) (is_ar _ _) rfl rfl rfl rfl rfl rfl
  | zehavi05Marked p =>
    exact poissonA_is _ _ rfl _ _ (is_op2 (· * ·) (zehaviMaxCen_is _ _ _) (is_const _ _)) (is_op2 (· * ·) (is_ar _ _) (is_const _ _)) (is_const _ _) (is_const _ _)
      (is_then_uf (fun co => Real.sqrt (10 ^ p.logA * co * (1 - co))) (zehaviMaxCen_is _ _ _))
  | continuousPowerLaw p => exact bulkA_is _ _ _ _ _ _ central _ (is_where _ _ _ _) (is_like 1 (· * p.sigma_A) _)
  | constant p => exact bulkA_is _ _ _ _ _ _ central _ (is_where _ _ _ _) (is_like 1 (· * p.sigma_A) _)
  | spinelli19 p =>
    exact poissonA_is _ _ rfl _ _ (is_uf _ _) (spinelliSat_is _ _) (spinelliTpc_is _ _) (spinelliTps_is _ _ h) (is_then_uf (fun co => Real.sqrt (co * (1 - co))) (is_uf _ _))
  | leauthaud11 f p =>
    obtain ⟨l, rfl⟩ := h
    exact poissonA_default _ _ rfl _ _ (leauthaudCen_is _ _ _) (leauthaudSat_is _ _ _) rfl rfl rfl rfl rfl rfl

/-- C73: every method of every HOD class, whatever its parameters, called with an array of masses of any length, in any order and with any repetitions,
returns without raising and gives at each place the value of that one mass: the other masses in the array do not matter.  (The methods of bulk tracers
that do not depend on the mass return one number for the whole array, which numpy broadcasts.) -/
theorem C73_hod_arrays (i : HodInst) (central : Bool) (masses : List ℝ) : (mkA i central).Is (i.mk central) (.arr masses) := by
  refine hod_is i central _ ?_
  cases i <;> simp [Accepts]

/-- C73: consequence for two arrays: a mass that occurs in both has the same value in both, wherever it stands and whatever else is in them. -/
theorem C73_companions_do_not_matter (i : HodInst) (central : Bool) (l l' : List ℝ) (j j' : ℕ) (m : ℝ) (hj : l[j]? = some m) (hj' : l'[j']? = some m) :
    ∃ r r' v v', (mkA i central).satOcc (.arr l) = .ok r ∧ (mkA i central).satOcc (.arr l') = .ok r' ∧ r.bc l.length = some v ∧ r'.bc l'.length = some v' ∧
      v[j]? = v'[j']? ∧ v[j]? = some ((i.mk central).satOcc m) := by
  obtain ⟨r, e, h⟩ := (C73_hod_arrays i central l).satOcc
  obtain ⟨r', e', h'⟩ := (C73_hod_arrays i central l').satOcc
  exact ⟨r, r', _, _, e, e', h, h', by simp [Arg.entries, hj, hj'], by simp [Arg.entries, hj]⟩

/-- C73: a numpy scalar or an array of dimension 0 is accepted by every class but `Leauthaud11`, a Python number by every class but `Leauthaud11`, `Zheng05`
and `Spinelli19` (and `Tinker05` unless the number is exactly `10**M_min`), and gives the value of that mass. -/
theorem C73_hod_numbers_partial (i : HodInst) (central : Bool) (m : ℝ) :
    ((∀ f p, i ≠ .leauthaud11 f p) → (mkA i central).Is (i.mk central) (.np m) ∧ (mkA i central).Is (i.mk central) (.arr0 m)) ∧
    ((∀ f p, i ≠ .leauthaud11 f p) → (∀ p, i ≠ .zheng05 p) → (∀ p, i ≠ .spinelli19 p) → (∀ p, i = .tinker05 p → m ≠ 10 ^ p.M_min) →
      (mkA i central).Is (i.mk central) (.py m)) := by
  constructor
  · intro h
    refine ⟨hod_is i central _ ?_, hod_is i central _ ?_⟩ <;> cases i <;> simp_all [Accepts]
  · intro h h1 h2 h3
    refine hod_is i central _ ?_
    cases i <;> simp_all [Accepts]

/-- C73 is false of plain Python numbers: the satellites of `Zheng05` raise for every Python number, with or without central condition, and with them every
statistic built from them; the number of satellites of `Spinelli19` raises, `Leauthaud11` raises for every kind of number, and `Tinker05` raises at the mass
`10**M_min` — although each gives a value for the array with that one mass (`C73_hod_arrays`). -/
theorem C73_numbers_raise (central : Bool) (m : ℝ) :
    (∀ p, (mkA (.zheng05 p) central).satOcc (.py m) = .error .typeError ∧ (mkA (.zheng05 p) central).totalOcc (.py m) = .error .typeError ∧
      (mkA (.zheng05 p) central).ssPairs (.py m) = .error .typeError) ∧
    (∀ p, (mkA (.spinelli19 p) central).ns (.py m) = .error .typeError) ∧
    (∀ f p a, a = .py m ∨ a = .np m ∨ a = .arr0 m → (mkA (.leauthaud11 f p) central).cenOcc a = .error .typeError ∧
      (mkA (.leauthaud11 f p) central).satOcc a = .error .typeError) ∧
    (∀ p, (mkA (.tinker05 p) central).satOcc (.py (10 ^ p.M_min)) = .error .zeroDivision) := by
  have hz : ∀ p, (mkA (.zheng05 p) central).satOcc (.py m) = .error .typeError := by
    intro p
    cases central <;> simp [mkA, poissonA, zhengSatA, zhengCenA, get, bind, Except.bind, op2, uf]
  refine ⟨fun p => ⟨hz p, ?_, ?_⟩, fun p => ?_, fun f p a h => ?_, fun p => ?_⟩
  · have := hz p
    simp only [HodA.totalOcc, this, bind, Except.bind]
    simp [mkA, poissonA, zhengCenA]
  · have := hz p
    change (do return ar (· ^ 2) (← (mkA (.zheng05 p) central).satOcc (.py m))) = _
    rw [this]; rfl
  · obtain ⟨r, e, -⟩ := sat_is { inherent := false, cen := fun m => .ok (uf (spinelliCen p) m), sat := spinelliSatA p, tpc := spinelliTpcA p, tps := spinelliTpsA p } (spinelliDef p)
      rfl central (.py m) (is_uf _ _) (spinelliSat_is _ _) (spinelliTpc_is _ _)
    change (do op2 (· / ·) (← (mkA (.spinelli19 p) central).satOcc (.py m)) (← spinelliTpsA p (.py m))) = _
    change (mkA (.spinelli19 p) central).satOcc (.py m) = .ok r at e
    rw [e]; rfl
  · have hc : leauthaudCenA f p a = .error .typeError := by
      rcases h with rfl | rfl | rfl <;> simp [leauthaudCenA, stellarA, bind, Except.bind]
    refine ⟨hc, ?_⟩
    cases central <;> simp [mkA, poissonA, leauthaudSatA, hc, bind, Except.bind]
  · obtain ⟨r, e, -⟩ := zehaviCen_is p.M_min (.py (10 ^ p.M_min))
    simp [mkA, poissonA, tinkerSatA, e, bind, Except.bind, expQuot, ar]

/-- three masses in no order, one twice, of the default class: the array of values. -/
example : ∃ r, (mkA (.zheng05 {}) true).satOcc (.arr [(10:ℝ) ^ (13:ℝ), 5, (10:ℝ) ^ (13:ℝ)]) = .ok r ∧
    r.bc 3 = some [(HodInst.zheng05 {}).mk true |>.satOcc ((10:ℝ) ^ (13:ℝ)), (HodInst.zheng05 {}).mk true |>.satOcc 5,
      (HodInst.zheng05 {}).mk true |>.satOcc ((10:ℝ) ^ (13:ℝ))] :=
  (C73_hod_arrays (.zheng05 {}) true _).satOcc

/-! ## Other components -/

/-- C73: the bias of `Seljak04Cosmo` of an array of masses is, entry by entry, the bias of one mass; for a number of any kind, where every other bias model
gives a value, it raises (numpy scalars cannot be assigned to). -/
theorem C73_seljak04Cosmo_partial (p : Halomod.Bias.SeljakParams) (a1 a2 Om0 n s8 h mstar : ℝ) :
    (∀ masses, Is (seljakCosmoA p a1 a2 Om0 n s8 h mstar) (fun m => Halomod.Bias.seljak04Cosmo p a1 a2 Om0 n s8 h m mstar) (.arr masses)) ∧
    ∀ m a, a = .py m ∨ a = .np m ∨ a = .arr0 m → seljakCosmoA p a1 a2 Om0 n s8 h mstar a = .error .typeError := by
  classical
  constructor
  · intro l
    have hx : set (uf (fun y => log10 (y / mstar)) (.arr l)) (cmp (fun y => log10 (y / mstar) < -1) (.arr l)) (.py (-1)) =
        .ok (.arr (l.map fun y => if log10 (y / mstar) < -1 then -1 else log10 (y / mstar))) := by
      simp only [set, uf, cmp, List.length_map, if_true, Arg.bc, count_mask]
      have e : ∀ q : ℝ → Bool, List.replicate (l.filter q).length (-1:ℝ) = (l.filter q).map fun _ => (-1:ℝ) := fun q => by simp [List.map_const']
      rw [e, put_mask]
      simp
    obtain ⟨r, er, hr⟩ := bc_op2 (· + ·) (bc_ar (fun y => Halomod.Bias.seljak04 p y mstar) (arr_bc_self l))
      (bc_ar (· * (a1 * (Om0 - 0.3 + n - 1) + a2 * (s8 - 0.9 + h - 0.7)))
        (bc_map (fun y => if log10 (y / mstar) < -1 then -1 else log10 (y / mstar)) (arr_bc_self l)))
    refine ⟨r, ?_, ?_⟩
    · simp only [seljakCosmoA, hx, bind, Except.bind]
      exact er
    · rw [Arg.entries, hr, List.map_map, List.zipWith_map, List.zipWith_self]
      congr 1
  · rintro m a (rfl | rfl | rfl) <;> simp [seljakCosmoA, uf, set, bind, Except.bind]

open Classical in
/-- C73: the self-convolution of the NFW profile on arrays of separations and concentrations (the guards of the code look at the whole array) is, entry by
entry, that of one separation and one halo. -/
theorem C73_nfw_self_convolution (xs : List (ℝ × ℝ)) (hc : ∀ p ∈ xs, 0 < p.2) : nfwLArr xs = xs.map fun p => Halomod.Profiles.nfwL p.1 p.2 := by
  have hrep : List.replicate xs.length (0:ℝ) = xs.map fun _ => (0:ℝ) := by simp [List.map_const']
  unfold nfwLArr
  simp only [hrep]
  by_cases h0 : ∀ p ∈ xs, p.1 > 2 * p.2
  · rw [if_pos h0]
    refine List.map_congr_left fun p hp => ?_
    have h1 := h0 p hp
    have h2 := hc p hp
    unfold Halomod.Profiles.nfwL
    rw [if_neg (by linarith), if_neg (by linarith)]
  · rw [if_neg h0]
    have hlo : (if ∃ p ∈ xs, p.1 ≤ p.2 then
        put (xs.map fun _ => (0:ℝ)) (xs.map fun p => decide (p.1 ≤ p.2)) ((xs.filter fun p => decide (p.1 ≤ p.2)).map fun p => Halomod.Profiles.nfwLlo p.1 p.2)
        else xs.map fun _ => (0:ℝ)) = xs.map fun p => if p.1 ≤ p.2 then Halomod.Profiles.nfwLlo p.1 p.2 else 0 := by
      by_cases h1 : ∃ p ∈ xs, p.1 ≤ p.2
      · rw [if_pos h1, put_mask]; simp
      · rw [if_neg h1]
        push Not at h1
        exact List.map_congr_left fun p hp => (if_neg (by linarith [h1 p hp])).symm
    rw [hlo]
    by_cases h2 : ∃ p ∈ xs, p.1 < 2 * p.2 ∧ p.1 > p.2
    · rw [if_pos h2, put_mask]
      refine List.map_congr_left fun p hp => ?_
      unfold Halomod.Profiles.nfwL
      by_cases a : p.1 ≤ p.2
      · simp [a]
      · by_cases b : p.1 ≤ 2 * p.2
        · simp [a, b, not_le.1 a]
        · simp [a, b]
    · rw [if_neg h2]
      push Not at h2
      refine List.map_congr_left fun p hp => ?_
      unfold Halomod.Profiles.nfwL
      by_cases a : p.1 ≤ p.2
      · simp [a]
      · rw [if_neg a, if_neg a]
        by_cases b : p.1 ≤ 2 * p.2
        · have : p.1 = 2 * p.2 := by
            by_contra hne
            exact a (h2 p hp (lt_of_le_of_ne b hne))
          rw [if_pos b, this, (Halomod.Profiles.C29_branches (hc p hp)).2]
        · rw [if_neg b]

open Halomod.Concentration

/-- C73 is false of `Bullock01`: when the first mass of the array is the one that collapses last (masses in descending order, say), every halo of the array
is given its collapse redshift, and so its concentration, instead of its own.  (In ascending order every halo has its own: `C32_monotone`.) -/
theorem C73_bullock01_descending (norm K F : ℝ) (nu D : ℝ → ℝ) (m : ℝ) (rest : List ℝ) (z : ℝ)
    (h : ∀ x ∈ rest, growthInv D (Real.sqrt (nu (F * m))) ≤ growthInv D (Real.sqrt (nu (F * x)))) :
    bullockZc F nu D (m :: rest) z = (m :: rest).map (fun _ => max z (growthInv D (Real.sqrt (nu (F * m))))) ∧
    bullockCm norm K F nu D (m :: rest) z = (m :: rest).map (fun _ => norm * K * (max z (growthInv D (Real.sqrt (nu (F * m)))) + 1) / (z + 1)) ∧
    ∀ x ∈ rest, bullockZc F nu D [x] z = [max z (growthInv D (Real.sqrt (nu (F * x))))] := by
  have hcl : ∀ y : ℝ, (open Classical in if y < z then z else y) = max z y := by
    intro y
    by_cases hy : y < z
    · rw [if_pos hy, max_eq_left hy.le]
    · rw [if_neg hy, max_eq_right (not_lt.1 hy)]
  have hmin : arrMin ((m :: rest).map fun x => growthInv D (Real.sqrt (nu (F * x)))) = growthInv D (Real.sqrt (nu (F * m))) := by
    obtain ⟨hm, hle⟩ := arrMin_mem ((m :: rest).map fun x => growthInv D (Real.sqrt (nu (F * x)))) (by simp)
    refine le_antisymm (hle _ (by simp)) ?_
    rw [List.mem_map] at hm
    obtain ⟨x, hx, e⟩ := hm
    rw [← e]
    rcases List.mem_cons.1 hx with rfl | hx
    · exact le_rfl
    · exact h x hx
  have hz : bullockZc F nu D (m :: rest) z = (m :: rest).map (fun _ => max z (growthInv D (Real.sqrt (nu (F * m))))) := by
    unfold bullockZc
    simp only [hmin]
    simp only [List.map_cons, accMin, if_true, clampLow, hcl, List.map_map]
    simp [Function.comp_def]
  refine ⟨hz, ?_, fun x _ => ?_⟩
  · unfold bullockCm
    rw [hz, List.map_map]; rfl
  · simp [bullockZc, arrMin, accMin, clampLow, hcl]

/-- two masses in descending order, of which the first has its whole history ahead of it at redshift 0: the second loses its own collapse redshift. -/
example : ∃ m : ℝ, bullockZc 1 (fun x => x ^ 2) (fun z => (1 + z)⁻¹) [1, m] 0 = [0, 0] ∧
    bullockZc 1 (fun x => x ^ 2) (fun z => (1 + z)⁻¹) [m] 0 = [zFine 100] ∧ 0 < zFine 100 := by
  have hD : StrictAntiOn (fun z : ℝ => (1 + z)⁻¹) (Set.Ici 0) := by
    intro a ha b hb hab
    have ha' : (0:ℝ) ≤ a := ha
    exact inv_strictAnti₀ (by linarith) (by linarith)
  have hp : 0 < zFine 100 := by unfold zFine; norm_num
  have e0 : zFine 0 = 0 := by unfold zFine; simp
  have g0 : growthInv (fun z : ℝ => (1 + z)⁻¹) (Real.sqrt (((1:ℝ) * 1) ^ 2)) = 0 := by
    have := C32_inverse hD (i := 0) (by norm_num)
    rw [e0] at this
    simpa using this
  have g1 : growthInv (fun z : ℝ => (1 + z)⁻¹) (Real.sqrt ((1 * (1 + zFine 100)⁻¹) ^ 2)) = zFine 100 := by
    have := C32_inverse hD (i := 100) (by norm_num)
    rw [one_mul, Real.sqrt_sq (by positivity)]
    exact this
  obtain ⟨h1, -, h3⟩ := C73_bullock01_descending 1 1 1 (fun x => x ^ 2) (fun z => (1 + z)⁻¹) 1 [(1 + zFine 100)⁻¹] 0
    (by intro x hx; rw [List.mem_singleton] at hx; rw [hx]; rw [g0, g1]; exact hp.le)
  refine ⟨(1 + zFine 100)⁻¹, ?_, ?_, hp⟩
  · rw [h1, g0]; simp
  · rw [h3 _ (by simp), g1, max_eq_right hp.le]

end Halomod.Batch
