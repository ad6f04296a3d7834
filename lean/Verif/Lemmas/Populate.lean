import Verif.Model.Populate
import Verif.Spec.Populate

namespace Halomod.Populate

open Spec

theorem mask_map {α β : Type} (L : List β) (f : β → α) (g : β → Bool) :
    mask (L.map f) (L.map g) = (L.filter g).map f := by
  unfold mask
  induction L with
  | nil => rfl
  | cons a t ih =>
    simp only [List.map_cons, List.zip_cons_cons, List.filter_cons]
    split_ifs with h <;> simp_all

theorem fancy_ok {α : Type} (L : List (α × ℕ)) (a : List α) (h : ∀ p ∈ L, a[p.2]? = some p.1) :
    fancy a (L.map (·.2)) = some (L.map (·.1)) := by
  unfold fancy
  induction L with
  | nil => rfl
  | cons p t ih =>
    simp only [List.map_cons, List.mapM_cons]
    rw [ih (fun q hq => h q (List.mem_cons_of_mem _ hq)), h p List.mem_cons_self]
    rfl

/-- `a[np.arange(len(a))[b]] = a[b]`. -/
theorem fancy_mask {α : Type} (a : List α) (b : List Bool) (hl : a.length = b.length) :
    fancy a (mask (List.range a.length) b) = some (mask a b) := by
  have hfst : (a.zip b).map Prod.fst = a := List.map_fst_zip hl.le
  have hsnd : (a.zip b).map Prod.snd = b := List.map_snd_zip hl.ge
  have hlen : (a.zip b).length = a.length := by simp [hl]
  have e1 : List.range a.length = (a.zip b).zipIdx.map (·.2) := by
    rw [List.range_eq_range', ← hlen, List.zipIdx_map_snd]
  have e2 : b = (a.zip b).zipIdx.map (fun q => q.1.2) := by
    conv_lhs => rw [← hsnd, ← List.zipIdx_map_fst 0 (a.zip b), List.map_map]
    rfl
  have e3 : a = (a.zip b).zipIdx.map (fun q => q.1.1) := by
    conv_lhs => rw [← hfst, ← List.zipIdx_map_fst 0 (a.zip b), List.map_map]
    rfl
  have m1 : mask (List.range a.length) b
      = ((a.zip b).zipIdx.filter (fun q => q.1.2)).map (·.2) := by
    rw [e1]; conv_lhs => rw [e2]
    rw [← e2, ← e1]
    conv_lhs => rw [e1]
    conv_lhs => arg 2; rw [e2]
    exact mask_map _ _ _
  have m2 : mask a b = ((a.zip b).zipIdx.filter (fun q => q.1.2)).map (fun q => q.1.1) := by
    conv_lhs => arg 2; rw [e2]
    conv_lhs => arg 1; rw [e3]
    exact mask_map _ _ _
  rw [m1, m2]
  have := fancy_ok (((a.zip b).zipIdx.filter (fun q => q.1.2)).map (fun q => (q.1.1, q.2))) a ?_
  · simpa [List.map_map, Function.comp_def] using this
  · intro p hp
    obtain ⟨q, hq, rfl⟩ := List.mem_map.mp hp
    have hq' := (List.mem_filter.mp hq).1
    have := List.mem_zipIdx' hq'
    obtain ⟨h1, h2⟩ := this
    simp only
    have h3 : q.2 < a.length := by rw [← hlen]; exact h1
    rw [List.getElem?_eq_getElem h3]
    rw [h2]; simp

theorem repeat_eq {β : Type} (L : List (β × ℕ)) (f : β → ℕ) :
    repeat_ ((L.filter (fun p => p.2 > 0)).map (fun p => f p.1)) ((L.filter (fun p => p.2 > 0)).map (·.2))
      = L.flatMap fun p => List.replicate p.2 (f p.1) := by
  unfold repeat_
  induction L with
  | nil => rfl
  | cons a t ih =>
    by_cases h : a.2 > 0
    · simp only [List.filter_cons, h, decide_true, if_true, List.map_cons, List.zip_cons_cons,
        List.flatMap_cons]
      rw [ih]
    · have h0 : a.2 = 0 := by omega
      simp only [List.filter_cons, h, decide_false, List.flatMap_cons, Bool.false_eq_true, if_false]
      rw [ih, h0]; rfl

theorem scanl_getElem? (L : List ℕ) (a i : ℕ) (h : i ≤ L.length) :
    (L.scanl (· + ·) a)[i]? = some (a + (L.take i).sum) := by
  induction L generalizing a i with
  | nil => 
    have : i = 0 := by simpa using h
    subst this; simp
  | cons b t ih =>
    cases i with
    | zero => simp
    | succ i =>
      rw [List.scanl_cons]
      have := ih (a + b) i (by simpa using h)
      simp only [List.take_succ_cons, List.sum_cons]
      rw [← add_assoc, ← this]
      simp

/-- the fill loop writes exactly the blocks of the first `k` occupied haloes. -/
theorem fill_loop {M P : Type} (draw : ℕ → ℕ → M → P → List P) (L : List ((Halo M P) × ℕ))
    (hdraw : ∀ i n m c, (draw i n m c).length = n) (cen rest : List P)
    (hrest : rest.length = (L.map (·.2)).sum) (k : ℕ) (hk : k ≤ L.length) :
    (List.range k).foldlM (fillArray draw (L.map (·.1.mass)) (L.map (·.2)) (L.map (·.1.centre))
      (((L.map (·.2)).scanl (· + ·) 0).map (· + cen.length))) (cen ++ rest)
    = some (cen ++ (L.zipIdx.take k).flatMap (fun q => draw q.2 q.1.2 q.1.1.mass q.1.1.centre)
        ++ rest.drop (((L.map (·.2)).take k).sum)) := by
  induction k with
  | zero => simp
  | succ k ih =>
    rw [List.range_succ, List.foldlM_append, ih (by omega)]
    have hkL : k < L.length := by omega
    have hlen : ∀ j, ((L.zipIdx.take j).flatMap
        (fun q => draw q.2 q.1.2 q.1.1.mass q.1.1.centre)).length = ((L.map (·.2)).take j).sum := by
      intro j
      rw [List.length_flatMap]
      congr 1
      simp only [hdraw]
      rw [List.map_take, ← List.map_take]
      conv_rhs => rw [← List.zipIdx_map_fst 0 L]
      rw [List.map_map, List.map_take]; rfl
    have hz : L.zipIdx.take (k + 1) = L.zipIdx.take k ++ [(L[k], k)] := by
      rw [List.take_add_one]; simp [hkL]
    have ht : ((L.map (·.2)).take (k + 1)).sum = ((L.map (·.2)).take k).sum + L[k].2 := by
      rw [List.take_add_one]; simp [hkL]
    have htot : ((L.map (·.2)).take (k + 1)).sum ≤ rest.length := by
      rw [hrest]
      conv_rhs => rw [← List.take_append_drop (k + 1) (L.map (·.2)), List.sum_append]
      omega
    simp only [Option.bind_eq_bind, Option.bind_some, List.foldlM_cons, List.foldlM_nil]
    unfold fillArray
    have g1 : (L.map (·.1.mass))[k]? = some L[k].1.mass := by simp [hkL]
    have g2 : (L.map (·.2))[k]? = some L[k].2 := by simp [hkL]
    have g3 : (L.map (·.1.centre))[k]? = some L[k].1.centre := by simp [hkL]
    have g4 : (((L.map (·.2)).scanl (· + ·) 0).map (· + cen.length))[k]?
        = some (((L.map (·.2)).take k).sum + cen.length) := by
      rw [List.getElem?_map, scanl_getElem? _ _ _ (by simp; omega)]; simp
    have g5 : (((L.map (·.2)).scanl (· + ·) 0).map (· + cen.length))[k + 1]?
        = some (((L.map (·.2)).take k).sum + L[k].2 + cen.length) := by
      rw [List.getElem?_map, scanl_getElem? _ _ _ (by simp; omega), ht]; simp
    rw [g1, g2, g3, g4, g5]
    simp only [Option.bind_eq_bind, Option.bind_some, Option.pure_def]
    unfold setSlice
    set S := ((L.map (·.2)).take k).sum with hS
    set B := (L.zipIdx.take k).flatMap (fun q => draw q.2 q.1.2 q.1.1.mass q.1.1.centre) with hB
    have hBl : B.length = S := hlen k
    have hcb : (cen ++ B).length = S + cen.length := by simp [hBl, add_comm]
    rw [ht] at htot
    rw [if_pos]
    · simp only [Option.bind_some, Option.some.injEq]
      rw [hz, List.flatMap_append, ht]
      rw [← hB]
      have t1 : (cen ++ B ++ rest.drop S).take (S + cen.length) = cen ++ B := by
        rw [← hcb]; exact List.take_left
      have t2 : (cen ++ B ++ rest.drop S).drop (S + L[k].2 + cen.length) = rest.drop (S + L[k].2) := by
        rw [show S + L[k].2 + cen.length = (cen ++ B).length + L[k].2 by rw [hcb]; ring]
        rw [List.drop_append, List.drop_drop]
        simp
      rw [t1, t2]
      simp [List.append_assoc]
    · refine ⟨by omega, ?_, ?_⟩
      · rw [List.length_append, hcb, List.length_drop]; omega
      · rw [hdraw]; omega

end Halomod.Populate
