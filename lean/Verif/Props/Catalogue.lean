import Verif.Model.Catalogue
import Verif.Props.Sample

/-! # C09 for the whole catalogue: where every returned galaxy is, relative to the halo its row names -/
namespace Halomod.Profiles

open Halomod.Tools Halomod.Populate Halomod.HaloModel Halomod.Spec

theorem populateN_eq (s : Shape) (e : Env) (isp : Spl) (U : ℕ → ℝ) (G : ℕ → Fin 3 → ℝ) (n : ℕ) (m : ℝ) (centre : Fin 3 → ℝ) :
    s.populateN e isp U G n m centre = (List.range n).map fun k => place (s.rs e m (s.conc e m none))
      (isp 1000 (fTab s (s.conc e m none)) (xTab (s.conc e m none)) (U k)) (G k) centre := by
  unfold Shape.populateN
  simp only [populateOne_eq]
  exact congrFun (List.filterMap_eq_map (f := fun k => place (s.rs e m (s.conc e m none))
    (isp 1000 (fTab s (s.conc e m none)) (xTab (s.conc e m none)) (U k)) (G k) centre)) _

/-- rows of hosts and their positions go together. -/
theorem rows_forall {M P : Type} (draw : ℕ → ℕ → M → P → List P) (hlen : ∀ i n m c, (draw i n m c).length = n) (R : Halo M P → P → Prop)
    (L : List (Halo M P × ℕ)) (hR : ∀ q ∈ L, ∀ i, ∀ p ∈ draw i q.2 q.1.mass q.1.centre, R q.1 p) (k : ℕ) :
    List.Forall₂ (fun j p => ∃ q ∈ L, q.1.idx = j ∧ R q.1 p) (L.flatMap fun q => List.replicate q.2 q.1.idx)
      (((L.filter fun q => q.2 > 0).zipIdx k).flatMap fun q => draw q.2 q.1.2 q.1.1.mass q.1.1.centre) := by
  induction L generalizing k with
  | nil => simp
  | cons q L ih =>
    have hL := fun k => (ih (fun q' h => hR q' (List.mem_cons_of_mem _ h)) k).imp
      (S := fun j p => ∃ q' ∈ q :: L, q'.1.idx = j ∧ R q'.1 p) fun j p ⟨q', h1, h2⟩ => ⟨q', List.mem_cons_of_mem _ h1, h2⟩
    rw [List.flatMap_cons, List.filter_cons]
    split_ifs with h
    · rw [List.zipIdx_cons, List.flatMap_cons]
      refine List.rel_append ?_ (hL (k + 1))
      rw [List.forall₂_iff_get]
      refine ⟨by simp [hlen], fun i h1 h2 => ⟨q, by simp, by simp, hR q (by simp) k _ (List.get_mem _ _)⟩⟩
    · have h0 : q.2 = 0 := by simpa using h
      rw [h0]
      simpa using hL k

theorem cat_forall {M P : Type} (x : In M P) (H : List (Halo M P)) (ok : Ok x H) (out : Out P) (h : populate false x = some out)
    (R : Halo M P → P → Prop) (hc : ∀ a ∈ H, R a a.centre)
    (hR : ∀ a ∈ H, ∀ i n, ∀ p ∈ x.draw i n a.mass a.centre, R a p) :
    List.Forall₂ (fun j p => ∃ a ∈ H, a.idx = j ∧ R a p) out.halo out.pos := by
  rw [halo_ne_nil_of x H ok h]
  unfold catalogue haloColumn posColumn occupied
  simp only
  refine List.rel_append ?_ ?_
  · rw [List.forall₂_map_left_iff, List.forall₂_map_right_iff, List.forall₂_same]
    intro a ha
    have := (List.mem_filter.1 ha).1
    exact ⟨a, this, rfl, hc a this⟩
  · have hsub : ∀ q ∈ (hosts x.central H).zip (counts x H), q.1 ∈ H := by
      intro q hq
      have := (List.of_mem_zip (a := q.1) (b := q.2) (by simpa using hq)).1
      unfold hosts at this
      split_ifs at this
      · exact (List.mem_filter.1 this).1
      · exact this
    refine (rows_forall x.draw ok.draw R _ (fun q hq i p hp => hR q.1 (hsub q hq) i _ p hp) 0).imp ?_
    rintro j p ⟨q, hq, h1, h2⟩
    exact ⟨q.1, hsub q hq, h1, h2⟩

theorem idx_get {M P : Type} {H : List (Halo M P)} (hi : H.map (·.idx) = List.range H.length) {a : Halo M P} (ha : a ∈ H) : H[a.idx]? = some a := by
  obtain ⟨i, hi1, rfl⟩ := List.getElem_of_mem ha
  have : (H.map (·.idx))[i]? = some (H[i].idx) := by simp [hi1]
  rw [hi, List.getElem?_range hi1] at this
  rw [← Option.some.inj this]
  simp [hi1]

/-- what the random numbers are: uniform deviates in `[0,1]`, and normals not all zero (true with probability one). -/
structure RandomsOk (U : ℕ → ℕ → ℝ) (G : ℕ → ℕ → Fin 3 → ℝ) : Prop where
  unif : ∀ i k, U i k ∈ Set.Icc (0:ℝ) 1
  normal : ∀ i k, G i k ≠ 0

theorem drawn_inside {s : Shape} (hs : s.Exact) (h0 : s.h 0 = 0) {e : Env} (he : e.Good) (hb : e.etaBloat = 0) {m : ℝ} (hm : 0 < m)
    {isp : Spl} (hi : SplOk isp) (hinc : s.InverseIncreasing e isp m none) {U : ℕ → ℝ} {G : ℕ → Fin 3 → ℝ} (hU : ∀ k, U k ∈ Set.Icc (0:ℝ) 1)
    (hG : ∀ k, G k ≠ 0) (n : ℕ) (centre : Fin 3 → ℝ) : ∀ p ∈ s.populateN e isp U G n m centre, dist3 p centre ≤ e.massToRadius m := by
  intro p hp
  have hcp := conc_pos hs he hm (c := none) (fun v h => by cases h)
  have hR := (C23_overdensity he false hm).1
  obtain ⟨w, hw, hmono, hw0, hw1, -⟩ := sample_core hs h0 he hb hm (c := none) (fun v h => by cases h) hi hinc
  unfold Shape.populateN at hp
  rw [List.mem_filterMap] at hp
  obtain ⟨k, -, hk⟩ := hp
  rw [hw centre] at hk
  have hk' : place (e.massToRadius m / s.conc e m none) (w (U k)) (G k) centre = p := by simpa [Except.toOption] using hk
  rw [← hk']
  have hrs : 0 < e.massToRadius m / s.conc e m none := by positivity
  have h1 : 0 ≤ w (U k) := by
    rw [← hw0]; exact (hmono.le_iff_le ⟨le_rfl, zero_le_one⟩ (hU k)).2 (hU k).1
  have h2 : w (U k) ≤ s.conc e m none := by
    rw [← hw1]; exact (hmono.le_iff_le (hU k) ⟨zero_le_one, le_rfl⟩).2 (hU k).2
  refine (C09_inside_halo _ _ _ (G k) centre (hG k) hrs.le h1 h2).trans (le_of_eq ?_)
  field_simp

/-- C09: every galaxy of the catalogue lies inside the halo its row names: the row's index is that of an input halo, and the
distance from that halo's centre is at most the radius of that halo's mass; the first `ncen` rows are at the centre. -/
theorem C09_catalogue {s : Shape} (hs : s.Exact) (h0 : s.h 0 = 0) {e : Env} (he : e.Good) (hb : e.etaBloat = 0) {isp : Spl} (hi : SplOk isp)
    {U : ℕ → ℕ → ℝ} {G : ℕ → ℕ → Fin 3 → ℝ} (hUG : RandomsOk U G) (centres : List (Fin 3 → ℝ)) (masses : List ℝ) (central : Bool)
    (cgal : List ℕ) (drawSat : List ℝ → List ℕ) (junkPos : ℕ → List (Fin 3 → ℝ)) (junkHalo : ℕ → List ℕ)
    (H : List (Halo ℝ (Fin 3 → ℝ))) (ok : Ok (profileIn s e isp U G centres masses central cgal drawSat junkPos junkHalo) H)
    (hm : ∀ m ∈ masses, 0 < m ∧ s.InverseIncreasing e isp m none) (out : Out (Fin 3 → ℝ))
    (h : populateBox none (profileIn s e isp U G centres masses central cgal drawSat junkPos junkHalo) = some out) :
    out.pos.length = out.halo.length ∧
    ∀ t i p, out.halo[t]? = some i → out.pos[t]? = some p → ∃ m ctr, masses[i]? = some m ∧ centres[i]? = some ctr ∧
      dist3 p ctr ≤ e.massToRadius m ∧ (t < out.ncen → p = ctr) := by
  set x := profileIn s e isp U G centres masses central cgal drawSat junkPos junkHalo with hx
  have h' : populate false x = some out := by
    unfold populateBox at h
    simpa using h
  have hmH : ∀ a ∈ H, a.mass ∈ masses := by
    intro a ha
    have : masses = H.map (·.mass) := ok.masses
    rw [this]
    exact List.mem_map_of_mem ha
  have hd0 : ∀ p : Fin 3 → ℝ, dist3 p p = 0 := by intro p; simp [dist3]
  have key := cat_forall x H ok out h' (fun a p => dist3 p a.centre ≤ e.massToRadius a.mass)
    (fun a ha => by
      rw [hd0]; exact (C23_overdensity he false (hm _ (hmH a ha)).1).1.le)
    (fun a ha i n p hp => drawn_inside hs h0 he hb (hm _ (hmH a ha)).1 hi (hm _ (hmH a ha)).2 (fun k => hUG.unif i k)
      (fun k => hUG.normal i k) n a.centre p hp)
  rw [List.forall₂_iff_get] at key
  refine ⟨key.1.symm, fun t i p ht hp => ?_⟩
  obtain ⟨ht1, ht2⟩ := List.getElem?_eq_some_iff.1 ht
  obtain ⟨hp1, hp2⟩ := List.getElem?_eq_some_iff.1 hp
  obtain ⟨a, ha, ha1, ha2⟩ := key.2 t ht1 hp1
  simp only [List.get_eq_getElem, ht2, hp2] at ha1 ha2
  have hget := idx_get ok.idx ha
  rw [ha1] at hget
  refine ⟨a.mass, a.centre, ?_, ?_, ha2, fun hlt => ?_⟩
  · have : masses = H.map (·.mass) := ok.masses
    rw [this, List.getElem?_map, hget]; rfl
  · have : centres = H.map (·.centre) := ok.centres
    rw [this, List.getElem?_map, hget]; rfl
  · obtain ⟨c1, -, c3⟩ := C07_centrals x H ok out h'
    have e1 : (out.halo.take out.ncen)[t]? = some i := by rw [List.getElem?_take_of_lt hlt, ht]
    have e2 : (out.pos.take out.ncen)[t]? = some p := by rw [List.getElem?_take_of_lt hlt, hp]
    rw [c1, List.getElem?_map] at e1
    rw [c3, List.getElem?_map] at e2
    obtain ⟨b, hb1, hb2⟩ := Option.map_eq_some_iff.1 e1
    obtain ⟨b', hb1', hb2'⟩ := Option.map_eq_some_iff.1 e2
    rw [hb1] at hb1'
    obtain rfl := Option.some.inj hb1'
    have hbH : b ∈ H := (List.mem_filter.1 (List.mem_of_getElem? hb1)).1
    have := idx_get ok.idx hbH
    rw [hb2, hget] at this
    obtain rfl := Option.some.inj this
    exact hb2'.symm

theorem coord_le_dist3 (p q : Fin 3 → ℝ) (j : Fin 3) : |p j - q j| ≤ dist3 p q := by
  unfold dist3
  rw [← Real.sqrt_sq_eq_abs]
  apply Real.sqrt_le_sqrt
  exact Finset.single_le_sum (f := fun j => (p j - q j) ^ 2) (fun j _ => sq_nonneg _) (Finset.mem_univ j)

/-- C09: with a box, the same catalogue of rows; if the haloes' centres are in the box and no halo is larger than the box, every
coordinate of every galaxy is in the box, and undoing a shift of at most one box length per axis puts the galaxy back inside the
halo its row names. -/
theorem C09_catalogue_box {s : Shape} (hs : s.Exact) (h0 : s.h 0 = 0) {e : Env} (he : e.Good) (hb : e.etaBloat = 0) {isp : Spl} (hi : SplOk isp)
    {U : ℕ → ℕ → ℝ} {G : ℕ → ℕ → Fin 3 → ℝ} (hUG : RandomsOk U G) (centres : List (Fin 3 → ℝ)) (masses : List ℝ) (central : Bool)
    (cgal : List ℕ) (drawSat : List ℝ → List ℕ) (junkPos : ℕ → List (Fin 3 → ℝ)) (junkHalo : ℕ → List ℕ)
    (H : List (Halo ℝ (Fin 3 → ℝ))) (ok : Ok (profileIn s e isp U G centres masses central cgal drawSat junkPos junkHalo) H)
    (hm : ∀ m ∈ masses, 0 < m ∧ s.InverseIncreasing e isp m none) (ed : Edges)
    (hbox : ∀ ctr ∈ centres, ∀ j, ed.lo j ≤ ctr j ∧ ctr j ≤ ed.hi j) (hsize : ∀ m ∈ masses, ∀ j, e.massToRadius m ≤ ed.hi j - ed.lo j)
    (out : Out (Fin 3 → ℝ))
    (h : populateBox (some ed) (profileIn s e isp U G centres masses central cgal drawSat junkPos junkHalo) = some out) :
    (∃ free, populateBox none (profileIn s e isp U G centres masses central cgal drawSat junkPos junkHalo) = some free ∧
      out.halo = free.halo ∧ out.ncen = free.ncen) ∧ out.pos.length = out.halo.length ∧
    ∀ t i p, out.halo[t]? = some i → out.pos[t]? = some p → (∀ j, ed.lo j ≤ p j ∧ p j ≤ ed.hi j) ∧
      ∃ m ctr, masses[i]? = some m ∧ centres[i]? = some ctr ∧ ∃ z : Fin 3 → ℤ, (∀ j, |z j| ≤ 1) ∧
        dist3 (fun j => p j + z j * (ed.hi j - ed.lo j)) ctr ≤ e.massToRadius m ∧ (t < out.ncen → p = ctr) := by
  unfold populateBox at h
  obtain ⟨free, hf, hout⟩ := Option.map_eq_some_iff.1 h
  have hfree : populateBox none (profileIn s e isp U G centres masses central cgal drawSat junkPos junkHalo) = some free := by
    unfold populateBox
    rw [hf]; rfl
  obtain ⟨hl, hcat⟩ := C09_catalogue hs h0 he hb hi hUG centres masses central cgal drawSat junkPos junkHalo H ok hm free hfree
  subst hout
  refine ⟨⟨free, hfree, rfl, rfl⟩, by simpa using hl, fun t i p ht hp => ?_⟩
  simp only [List.getElem?_map] at hp
  obtain ⟨q, hq, rfl⟩ := Option.map_eq_some_iff.1 hp
  obtain ⟨m, ctr, h1, h2, h3, h4⟩ := hcat t i q ht hq
  have hmm := List.mem_of_getElem? h1
  have hcc := List.mem_of_getElem? h2
  have hin : ∀ j, ed.lo j - (ed.hi j - ed.lo j) ≤ q j ∧ q j ≤ ed.hi j + (ed.hi j - ed.lo j) := by
    intro j
    have a1 := (coord_le_dist3 q ctr j).trans (h3.trans (hsize m hmm j))
    have a2 := hbox ctr hcc j
    rw [abs_le] at a1
    constructor <;> linarith [a1.1, a1.2, a2.1, a2.2]
  refine ⟨fun j => C09_wrap_in_box_partial ed q j (hin j).1 (hin j).2, m, ctr, h1, h2, ?_⟩
  have hz : ∀ j, ∃ z : ℤ, |z| ≤ 1 ∧ wrap ed q j + z * (ed.hi j - ed.lo j) = q j := by
    intro j
    rcases C09_wrap_shift ed q j with h | h | h
    · exact ⟨0, by norm_num, by rw [h]; push_cast; ring⟩
    · exact ⟨-1, by norm_num, by rw [h]; push_cast; ring⟩
    · exact ⟨1, by norm_num, by rw [h]; push_cast; ring⟩
  choose z hz1 hz2 using hz
  refine ⟨z, hz1, ?_, fun hlt => ?_⟩
  · rw [show (fun j => wrap ed q j + z j * (ed.hi j - ed.lo j)) = q from funext hz2]
    exact h3
  · have hqc := h4 hlt
    subst hqc
    funext j
    exact C09_wrap_inside ed q j (hbox q hcc j).1 (hbox q hcc j).2

/-- a case meeting the hypotheses: two haloes, one without a central, each with two satellites allowed. -/
example : ∃ (H : List (Halo ℝ (Fin 3 → ℝ))) (out : Out (Fin 3 → ℝ)),
    let x := profileIn nfw fidEnv linSpl (fun _ _ => 1 / 2) (fun _ _ _ => 1) [fun _ => 1, fun _ => 2] [1e12, 1e13] false [1, 0]
      (fun ms => ms.map fun _ => 2) (fun n => List.replicate n 0) (fun n => List.replicate n 0)
    Ok x H ∧ populateBox (some (.scalar 100)) x = some out ∧ RandomsOk (fun _ _ => 1 / 2) (fun _ _ _ => 1) ∧
      ∀ m ∈ x.masses, 0 < m ∧ nfw.InverseIncreasing fidEnv linSpl m none := by
  set x := profileIn nfw fidEnv linSpl (fun _ _ => 1 / 2) (fun _ _ _ => 1) [fun _ => 1, fun _ => 2] [1e12, 1e13] false [1, 0]
      (fun ms => ms.map fun _ => 2) (fun n => List.replicate n 0) (fun n => List.replicate n 0) with hx
  have ok : Ok x [⟨0, 1e12, fun _ => 1, true⟩, ⟨1, 1e13, fun _ => 2, false⟩] := by
    refine ⟨by simp [hx, profileIn], by simp [hx, profileIn], by simp [hx, profileIn], by simp [List.range_succ], by simp [hx, profileIn], ?_,
      by simp [hx, profileIn], by simp [hx, profileIn]⟩
    intro i n m c
    simp only [hx, profileIn, populateN_eq]
    simp
  obtain ⟨o, ho⟩ := (C07_succeeds_iff x _ ok).2 (Or.inl ⟨⟨0, 1e12, fun _ => 1, true⟩, by simp, rfl⟩)
  refine ⟨_, { o with pos := o.pos.map (wrap (.scalar 100)) }, ok, ?_, ⟨fun _ _ => by norm_num, fun _ _ h => ?_⟩, fun m hm => ?_⟩
  · unfold populateBox; rw [ho]; rfl
  · have := congrFun h 0; norm_num at this
  · have : 0 < m := by
      have : m = 1e12 ∨ m = 1e13 := by simpa [hx, profileIn] using hm
      rcases this with rfl | rfl <;> norm_num
    exact ⟨this, inverseIncreasing_linear C24_nfw_exact C27_h_zero.1 fidEnv_good rfl this (by simp)⟩

end Halomod.Profiles
