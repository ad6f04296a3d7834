import Verif.Lemmas.Populate
import Verif.Props.Hod
import Mathlib.Tactic.Linarith
import Mathlib.Tactic.Ring
import Mathlib.Tactic.FieldSimp
import Mathlib.Tactic.NormNum

/-! # C07-C10: mock catalogues -/
namespace Halomod.Populate

open Spec

/-- The inputs are those of the haloes `H` (numbered 0,1,... in order), the central draws are 0/1, and
the random generators return as many numbers as they are asked for. -/
structure Ok {M P : Type} (x : In M P) (H : List (Halo M P)) : Prop where
  masses : x.masses = H.map (·.mass)
  centres : x.centres = H.map (·.centre)
  cgal : x.cgal = H.map (fun h => if h.hasCentral then 1 else 0)
  idx : H.map (·.idx) = List.range H.length
  drawSat : ∀ ms, (x.drawSat ms).length = ms.length
  draw : ∀ i n m c, (x.draw i n m c).length = n
  junkPos : ∀ n, (x.junkPos n).length = n
  junkHalo : ∀ n, (x.junkHalo n).length = n

/-- the number of satellites of each host, in host order: what the generator returned. -/
def counts {M P : Type} (x : In M P) (H : List (Halo M P)) : List ℕ :=
  x.drawSat ((hosts x.central H).map (·.mass))

/-- the expected catalogue. -/
def catalogue {M P : Type} (x : In M P) (H : List (Halo M P)) : Out P where
  pos := posColumn x.central H (counts x H) x.draw
  halo := haloColumn x.central H (counts x H)
  ncen := (H.filter (·.hasCentral)).length

theorem setSlice_front {α : Type} (junk new : List α) (n k : ℕ) (hn : new.length = n)
    (hj : junk.length = n + k) :
    setSlice junk 0 n new = some (new ++ junk.drop n) := by
  unfold setSlice
  rw [if_pos ⟨by omega, by omega, by omega⟩]; simp

theorem setSlice_back {α : Type} (a b new : List α) (hb : b.length = new.length) :
    setSlice (a ++ b) a.length (a ++ b).length new = some (a ++ new) := by
  unfold setSlice
  rw [if_pos ⟨by simp, by simp, by simp [hb]⟩]; simp

theorem sum_indicator {M P : Type} (H : List (Halo M P)) :
    (H.map (fun h => if h.hasCentral then 1 else 0)).sum = (H.filter (·.hasCentral)).length := by
  induction H with
  | nil => rfl
  | cons a t ih =>
    simp only [List.map_cons, List.sum_cons, List.filter_cons, ih]
    split_ifs <;> simp [add_comm]

theorem repeat_length {β : Type} (L : List (β × ℕ)) (f : β → ℕ) :
    (L.flatMap fun p => List.replicate p.2 (f p.1)).length = (L.map (·.2)).sum := by
  rw [List.length_flatMap]; simp

theorem cmask_eq {M P : Type} (H : List (Halo M P)) :
    (H.map (fun h => if h.hasCentral then 1 else 0)).map (fun c => decide (c > 0))
      = H.map (·.hasCentral) := by
  rw [List.map_map]; congr 1; ext h; cases hh : h.hasCentral <;> simp [hh]

theorem filter_sum (L : List ℕ) : (L.filter (fun s => s > 0)).sum = L.sum := by
  induction L with
  | nil => rfl
  | cons a t ih =>
    by_cases h : a > 0
    · simp [h, ih]
    · have : a = 0 := by omega
      simp [this, ih]

/-- The whole run of `populate` (serial branch): for every input it either stops with the division by
zero of its log message, exactly if the catalogue is empty, or returns the expected catalogue. The
pool branch leaves the satellite rows of `pos` as allocated. -/
theorem populate_eq {M P : Type} (pool : Bool) (x : In M P) (H : List (Halo M P)) (ok : Ok x H) :
    populate pool x =
      if (catalogue x H).halo = [] then none
      else some (if pool then
        { catalogue x H with
          pos := (H.filter (·.hasCentral)).map (·.centre) ++
            (x.junkPos ((H.filter (·.hasCentral)).length + (counts x H).sum)).drop
              (H.filter (·.hasCentral)).length }
        else catalogue x H) := by
  set cen := H.filter (·.hasCentral) with hcen
  set hs := hosts x.central H with hhs
  set cnt := counts x H with hcnt
  have hcl : cnt.length = hs.length := by rw [hcnt, counts, ok.drawSat]; simp [hhs]
  set L := hs.zip cnt with hL
  have hL1 : L.map (·.1) = hs := List.map_fst_zip hcl.ge
  have hL2 : L.map (·.2) = cnt := List.map_snd_zip hcl.le
  set O := L.filter (fun p => p.2 > 0) with hO
  have hcm : x.cgal.map (fun c => decide (c > 0)) = H.map (·.hasCentral) := by
    rw [ok.cgal, cmask_eq]
  have hch : mask (List.range x.masses.length) (H.map (·.hasCentral)) = cen.map (·.idx) := by
    rw [ok.masses, List.length_map, ← ok.idx, mask_map]
  have hms : (if x.central then mask x.masses (H.map (·.hasCentral)) else x.masses)
      = hs.map (·.mass) := by
    rw [ok.masses, mask_map, hhs, hosts]; split_ifs <;> rfl
  have hct : (if x.central then mask x.centres (H.map (·.hasCentral)) else x.centres)
      = hs.map (·.centre) := by
    rw [ok.centres, mask_map, hhs, hosts]; split_ifs <;> rfl
  have hpc : (if x.central then hs.map (·.centre)
      else mask (hs.map (·.centre)) (H.map (·.hasCentral))) = cen.map (·.centre) := by
    rw [hhs, hosts]; split_ifs
    · rfl
    · rw [mask_map]
  have hnc : x.cgal.sum = cen.length := by rw [ok.cgal, sum_indicator]
  have hsm : ∀ f : Halo M P → P, mask (hs.map f) (cnt.map (fun s => decide (s > 0)))
      = O.map (fun p => f p.1) := by
    intro f
    rw [← hL1, ← hL2, List.map_map, List.map_map]
    exact mask_map L _ _
  have hsmM : ∀ f : Halo M P → M, mask (hs.map f) (cnt.map (fun s => decide (s > 0)))
      = O.map (fun p => f p.1) := by
    intro f
    rw [← hL1, ← hL2, List.map_map, List.map_map]
    exact mask_map L _ _
  have hsmN : ∀ f : Halo M P → ℕ, mask (hs.map f) (cnt.map (fun s => decide (s > 0)))
      = O.map (fun p => f p.1) := by
    intro f
    rw [← hL1, ← hL2, List.map_map, List.map_map]
    exact mask_map L _ _
  have hsg : mask cnt (cnt.map (fun s => decide (s > 0))) = O.map (·.2) := by
    conv_lhs => rw [← hL2, List.map_map]
    exact mask_map L _ _
  have hsh : (if x.central then
        fancy (cen.map (·.idx)) (mask (List.range (hs.map (·.mass)).length)
          (cnt.map (fun s => decide (s > 0))))
      else some (mask (List.range (hs.map (·.mass)).length) (cnt.map (fun s => decide (s > 0)))))
      = some (O.map (fun p => p.1.idx)) := by
    rw [← hsmN]
    by_cases hx : x.central
    · rw [if_pos hx]
      have : hs = cen := by rw [hhs, hosts, if_pos hx]
      have hl : (hs.map (·.mass)).length = (cen.map (·.idx)).length := by simp [this]
      rw [hl, fancy_mask, this]
      rw [List.length_map, List.length_map, hcl, this]
    · rw [if_neg hx]
      have : hs = H := by rw [hhs, hosts, if_neg hx]
      rw [List.length_map, this, ok.idx]
  have hOs : (O.map (·.2)).sum = cnt.sum := by
    rw [← hL2, hO, ← filter_sum (L.map (·.2))]
    congr 1
    rw [List.filter_map]; rfl
  have hrep : repeat_ (O.map (fun p => p.1.idx)) (O.map (·.2))
      = L.flatMap fun p => List.replicate p.2 p.1.idx := repeat_eq L _
  have hrl : (L.flatMap fun p => List.replicate p.2 p.1.idx).length = cnt.sum := by
    rw [repeat_length L (fun h => h.idx), hL2]
  have hcat : (catalogue x H).halo = cen.map (·.idx) ++
      L.flatMap fun p => List.replicate p.2 p.1.idx := rfl
  have hemp : (List.dedup (cen.map (·.idx) ++ O.map (fun p => p.1.idx))).length = 0
      ↔ (catalogue x H).halo = [] := by
    rw [List.length_eq_zero_iff, List.dedup_eq_nil, hcat, ← hrep]
    simp only [List.append_eq_nil_iff]
    refine and_congr Iff.rfl ?_
    unfold repeat_
    constructor
    · intro h; rw [h]; rfl
    · intro h
      rw [List.map_eq_nil_iff]
      by_contra hne
      obtain ⟨p, hp⟩ := List.exists_mem_of_ne_nil _ hne
      have hp2 : p.2 > 0 := by simpa using (List.mem_filter.mp hp).2
      rw [List.flatMap_eq_nil_iff] at h
      have hz : (O.map (fun p => p.1.idx)).zip (O.map (·.2)) = O.map (fun p => (p.1.idx, p.2)) :=
        List.zip_map' ..
      have := h (p.1.idx, p.2) (by rw [hz]; exact List.mem_map.mpr ⟨p, hp, rfl⟩)
      simp at this; omega
  unfold populate
  simp only [hcm, hch, hms, hct, hpc, hnc]
  change (setSlice (x.junkHalo (cen.length + cnt.sum)) 0 cen.length (cen.map (·.idx))).bind _ = _
  rw [setSlice_front _ _ _ _ (by simp) (ok.junkHalo _)]
  simp only [Option.bind_some]
  change (setSlice (x.junkPos (cen.length + cnt.sum)) 0 cen.length (cen.map (·.centre))).bind _ = _
  rw [setSlice_front _ _ _ _ (by simp) (ok.junkPos _)]
  simp only [Option.bind_some]
  change ((if x.central then
        fancy (cen.map (·.idx)) (mask (List.range (hs.map (·.mass)).length)
          (cnt.map (fun s => decide (s > 0))))
      else some (mask (List.range (hs.map (·.mass)).length)
        (cnt.map (fun s => decide (s > 0)))))).bind _ = _
  rw [hsh]
  simp only [Option.bind_some]
  change (setSlice _ cen.length _ (repeat_ (O.map (fun p => p.1.idx))
    (mask cnt (cnt.map (fun s => decide (s > 0)))))).bind _ = _
  rw [hsg, hrep]
  have hback := setSlice_back (cen.map (·.idx)) ((x.junkHalo (cen.length + cnt.sum)).drop cen.length)
    (L.flatMap fun p => List.replicate p.2 p.1.idx) (by
      rw [hrl, List.length_drop, ok.junkHalo]; omega)
  rw [List.length_map] at hback
  rw [hback]
  simp only [Option.bind_some]
  have hdrop : ((x.junkPos (cen.length + cnt.sum)).drop cen.length).length = (O.map (·.2)).sum := by
    rw [hOs, List.length_drop, ok.junkPos]; omega
  cases pool with
  | true =>
    simp only [if_true]
    change (if (List.dedup (cen.map (·.idx) ++ O.map (fun p => p.1.idx))).length = 0 then _ else _) = _
    by_cases he : (catalogue x H).halo = []
    · rw [if_pos (hemp.mpr he), if_pos he]
    · rw [if_neg (fun h => he (hemp.mp h)), if_neg he]; rfl
  | false =>
    simp only [Bool.false_eq_true, if_false]
    change ((List.range (mask (hs.map (·.mass)) (cnt.map (fun s => decide (s > 0)))).length).foldlM
      (fillArray x.draw (mask (hs.map (·.mass)) (cnt.map (fun s => decide (s > 0))))
        (mask cnt (cnt.map (fun s => decide (s > 0))))
        (mask (hs.map (·.centre)) (cnt.map (fun s => decide (s > 0))))
        (((mask cnt (cnt.map (fun s => decide (s > 0)))).scanl (· + ·) 0).map (· + cen.length)))
      _).bind _ = _
    rw [hsmM, hsg, hsm, List.length_map]
    have hfill := fill_loop x.draw O ok.draw (cen.map (·.centre)) _ hdrop O.length le_rfl
    rw [List.length_map] at hfill
    rw [hfill]
    simp only [Option.bind_some]
    change (if (List.dedup (cen.map (·.idx) ++ O.map (fun p => p.1.idx))).length = 0 then _ else _) = _
    by_cases he : (catalogue x H).halo = []
    · rw [if_pos (hemp.mpr he), if_pos he]
    · rw [if_neg (fun h => he (hemp.mp h)), if_neg he]
      congr 1
      unfold catalogue
      congr 1
      unfold posColumn occupied
      rw [List.take_of_length_le (by simp), List.take_of_length_le (by simp), ← hdrop,
        List.drop_length, List.append_nil]

/-! ## C07 -/

/-- every list in the catalogue is non-empty iff some halo has a galaxy. -/
theorem halo_ne_nil_of {M P : Type} (x : In M P) (H : List (Halo M P)) {out : Out P} (ok : Ok x H)
    (h : populate false x = some out) : out = catalogue x H := by
  rw [populate_eq false x H ok] at h
  by_cases he : (catalogue x H).halo = []
  · rw [if_pos he] at h; exact absurd h (by simp)
  · rw [if_neg he] at h
    simpa using h.symm

/-- C07: the serial run succeeds for every input giving at least one galaxy; for an input giving no
galaxy at all it raises (the log message divides by the number of haloes with galaxies). -/
theorem C07_succeeds_iff {M P : Type} (x : In M P) (H : List (Halo M P)) (ok : Ok x H) :
    (∃ out, populate false x = some out) ↔
      (∃ h ∈ H, h.hasCentral) ∨ (∃ n ∈ counts x H, 0 < n) := by
  have hcl : (counts x H).length = (hosts x.central H).length := by
    rw [counts, ok.drawSat]; simp
  have key : (catalogue x H).halo = [] ↔ ¬ ((∃ h ∈ H, h.hasCentral) ∨ (∃ n ∈ counts x H, 0 < n)) := by
    unfold catalogue haloColumn
    simp only [List.append_eq_nil_iff, List.map_eq_nil_iff, List.filter_eq_nil_iff,
      List.flatMap_eq_nil_iff, List.replicate_eq_nil_iff, not_or, not_exists, not_and]
    refine and_congr Iff.rfl ?_
    constructor
    · intro h n hn hp
      rw [← List.map_snd_zip (l₁ := hosts x.central H) (l₂ := counts x H) hcl.le] at hn
      obtain ⟨p, hp', rfl⟩ := List.mem_map.mp hn
      have := h p hp'; omega
    · intro h p hp
      have := h p.2 (List.of_mem_zip hp).2
      omega
  rw [populate_eq false x H ok]
  by_cases he : (catalogue x H).halo = []
  · rw [if_pos he]; simp [key.mp he]
  · rw [if_neg he]
    simp only [Bool.false_eq_true, if_false, Option.some.injEq, exists_eq', true_iff]
    by_contra h; exact he (key.mpr h)

/-- C07: row counts. `pos` and `halo` both have (number of centrals) + (number of satellites drawn) rows. -/
theorem C07_rows {M P : Type} (x : In M P) (H : List (Halo M P)) (ok : Ok x H) (out : Out P)
    (h : populate false x = some out) :
    out.ncen = H.countP (·.hasCentral) ∧
    out.halo.length = out.ncen + (counts x H).sum ∧ out.pos.length = out.halo.length := by
  have hcl : (counts x H).length = (hosts x.central H).length := by
    rw [counts, ok.drawSat]; simp
  have hL2 : ((hosts x.central H).zip (counts x H)).map (·.2) = counts x H :=
    List.map_snd_zip hcl.le
  have hlen : (catalogue x H).halo.length = (catalogue x H).ncen + (counts x H).sum := by
    unfold catalogue haloColumn
    simp only [List.length_append, List.length_map]
    rw [repeat_length _ (fun h : Halo M P => h.idx), hL2]
  have hpl : (catalogue x H).pos.length = (catalogue x H).ncen + (counts x H).sum := by
    unfold catalogue posColumn occupied
    simp only [List.length_append, List.length_map, List.length_flatMap, ok.draw]
    congr 1
    rw [← filter_sum (counts x H)]
    conv_rhs => rw [← hL2, List.filter_map]
    congr 1
    rw [show (fun q : (Halo M P × ℕ) × ℕ => q.1.2) = (fun p : Halo M P × ℕ => p.2) ∘ Prod.fst from rfl,
      ← List.map_map, List.zipIdx_map_fst]; rfl
  rw [halo_ne_nil_of x H ok h]
  exact ⟨(List.countP_eq_length_filter ..).symm, hlen, by rw [hlen, hpl]⟩

/-- C07: the first `ncen` rows are the haloes with a central, in strictly ascending order, at their
centres. -/
theorem C07_centrals {M P : Type} (x : In M P) (H : List (Halo M P)) (ok : Ok x H) (out : Out P)
    (h : populate false x = some out) :
    out.halo.take out.ncen = (H.filter (·.hasCentral)).map (·.idx) ∧
    (out.halo.take out.ncen).Pairwise (· < ·) ∧
    out.pos.take out.ncen = (H.filter (·.hasCentral)).map (·.centre) := by
  have h1 : (catalogue x H).halo.take (catalogue x H).ncen = (H.filter (·.hasCentral)).map (·.idx) := by
    unfold catalogue haloColumn
    exact List.take_left' (by simp)
  rw [halo_ne_nil_of x H ok h]
  refine ⟨h1, ?_, ?_⟩
  · rw [h1]
    have : ((H.filter (·.hasCentral)).map (·.idx)).Sublist (H.map (·.idx)) :=
      List.Sublist.map _ List.filter_sublist
    rw [ok.idx] at this
    exact List.pairwise_lt_range.sublist this
  · unfold catalogue posColumn
    exact List.take_left' (by simp)

/-- C07: each host's satellites form one contiguous block, after the blocks of earlier hosts, of exactly
the drawn length, all labelled with that halo and drawn for its mass around its centre. -/
theorem C07_blocks {M P : Type} (x : In M P) (H : List (Halo M P)) (ok : Ok x H) (out : Out P)
    (h : populate false x = some out) (A B : List (Halo M P × ℕ)) (hh : Halo M P) (n : ℕ) (hn : 0 < n)
    (hs : (hosts x.central H).zip (counts x H) = A ++ (hh, n) :: B) :
    let off := out.ncen + (A.map (·.2)).sum
    (out.halo.drop off).take n = List.replicate n hh.idx ∧
    ∃ r, (out.pos.drop off).take n = x.draw r n hh.mass hh.centre := by
  have hsum : ((A.filter (fun p => p.2 > 0)).map (·.2)).sum = (A.map (·.2)).sum := by
    rw [← filter_sum (A.map (·.2)), List.filter_map]; rfl
  rw [halo_ne_nil_of x H ok h]
  simp only
  constructor
  · unfold catalogue haloColumn
    simp only
    rw [hs, List.flatMap_append, List.flatMap_cons, ← List.append_assoc]
    have hl : ((H.filter (·.hasCentral)).map (·.idx) ++
        A.flatMap fun p => List.replicate p.2 p.1.idx).length
        = (H.filter (·.hasCentral)).length + (A.map (·.2)).sum := by
      rw [List.length_append, repeat_length _ (fun h : Halo M P => h.idx), List.length_map]
    rw [← hl, List.drop_left]
    exact List.take_left' (by simp)
  · refine ⟨(A.filter (fun p => p.2 > 0)).length, ?_⟩
    unfold catalogue posColumn occupied
    simp only
    have hf : ((hosts x.central H).zip (counts x H)).filter (fun p => p.2 > 0)
        = A.filter (fun p => p.2 > 0) ++ (hh, n) :: B.filter (fun p => p.2 > 0) := by
      rw [hs, List.filter_append, List.filter_cons]; simp [hn]
    rw [hf, List.zipIdx_append, List.zipIdx_cons, List.flatMap_append, List.flatMap_cons,
      ← List.append_assoc]
    have hl : ((H.filter (·.hasCentral)).map (·.centre) ++
        (A.filter (fun p => p.2 > 0)).zipIdx.flatMap
          fun q => x.draw q.2 q.1.2 q.1.1.mass q.1.1.centre).length
        = (H.filter (·.hasCentral)).length + (A.map (·.2)).sum := by
      rw [List.length_append, List.length_map, List.length_flatMap]
      simp only [ok.draw]
      congr 1
      rw [← hsum]
      congr 1
      conv_rhs => rw [← List.zipIdx_map_fst 0 (A.filter (fun p => p.2 > 0)), List.map_map]
      rfl
    rw [← hl, List.drop_left]
    simp only [Nat.zero_add]
    exact List.take_left' (ok.draw ..)

/-- C07: every halo label is a valid index of the input arrays. -/
theorem C07_valid_index {M P : Type} (x : In M P) (H : List (Halo M P)) (ok : Ok x H) (out : Out P)
    (h : populate false x = some out) : ∀ i ∈ out.halo, i < x.masses.length := by
  have hi : ∀ g ∈ H, g.idx < x.masses.length := by
    intro g hg
    have : g.idx ∈ H.map (·.idx) := List.mem_map.mpr ⟨g, hg, rfl⟩
    rw [ok.idx] at this
    rw [ok.masses, List.length_map]; exact List.mem_range.mp this
  rw [halo_ne_nil_of x H ok h]
  intro i hi'
  unfold catalogue haloColumn at hi'
  rcases List.mem_append.mp hi' with h1 | h1
  · obtain ⟨g, hg, rfl⟩ := List.mem_map.mp h1
    exact hi g (List.mem_filter.mp hg).1
  · obtain ⟨p, hp, hp'⟩ := List.mem_flatMap.mp h1
    rw [(List.mem_replicate.mp hp').2]
    have := (List.of_mem_zip hp).1
    unfold hosts at this
    split_ifs at this
    · exact hi _ (List.mem_filter.mp this).1
    · exact hi _ this

/-- C07 finding: with the process pool the satellite positions returned are the uninitialised memory the
array was allocated with, whatever was drawn. -/
theorem C07_pool_positions_lost {M P : Type} (x : In M P) (H : List (Halo M P)) (ok : Ok x H)
    (out : Out P) (h : populate true x = some out) :
    out.halo = (catalogue x H).halo ∧
    out.pos.drop out.ncen = (x.junkPos (out.ncen + (counts x H).sum)).drop out.ncen := by
  rw [populate_eq true x H ok] at h
  by_cases he : (catalogue x H).halo = []
  · rw [if_pos he] at h; exact absurd h (by simp)
  rw [if_neg he] at h
  simp only [if_true, Option.some.injEq] at h
  rw [← h]
  refine ⟨rfl, ?_⟩
  simp only [catalogue]
  exact List.drop_left' (by simp)

/-- C07: with the process pool everything but the satellite positions is as in the serial run on the same
draws: it succeeds in the same cases, with the same halo column, the same number of centrals, the same
number of rows and the same positions of the centrals. -/
theorem C07_pool_same_bookkeeping {M P : Type} (x : In M P) (H : List (Halo M P)) (ok : Ok x H) :
    (populate true x = none ↔ populate false x = none) ∧
    ∀ out out', populate true x = some out → populate false x = some out' →
      out.halo = out'.halo ∧ out.ncen = out'.ncen ∧ out.pos.length = out'.pos.length ∧
      out.pos.take out.ncen = out'.pos.take out'.ncen := by
  constructor
  · rw [populate_eq true x H ok, populate_eq false x H ok]
    split_ifs <;> simp_all
  · intro out out' h h'
    obtain ⟨r1, r2, r3⟩ := C07_rows x H ok out' h'
    have c3 := (C07_centrals x H ok out' h').2.2
    have he' := halo_ne_nil_of x H ok h'
    rw [populate_eq true x H ok] at h
    by_cases he : (catalogue x H).halo = []
    · rw [if_pos he] at h; exact absurd h (by simp)
    rw [if_neg he] at h
    simp only [if_true, Option.some.injEq] at h
    have hn : out'.ncen = (H.filter (·.hasCentral)).length := by rw [he']; rfl
    subst h
    refine ⟨by rw [he'], by rw [he'], ?_, ?_⟩
    · rw [r3, r2, hn]
      simp [ok.junkPos]
    · rw [c3]
      exact List.take_left' (by simp [catalogue])

/-! ## C08 -/

/-- C08: with the central condition every satellite row belongs to a halo that is among the central
rows. -/
theorem C08_central_condition {M P : Type} (x : In M P) (H : List (Halo M P)) (ok : Ok x H)
    (out : Out P) (h : populate false x = some out) (hc : x.central = true) :
    ∀ i ∈ out.halo.drop out.ncen, i ∈ out.halo.take out.ncen := by
  have hcen := (C07_centrals x H ok out h).1
  intro i hi
  rw [hcen]
  rw [halo_ne_nil_of x H ok h] at hi
  have : (catalogue x H).halo.drop (catalogue x H).ncen
      = ((hosts x.central H).zip (counts x H)).flatMap fun p => List.replicate p.2 p.1.idx := by
    unfold catalogue haloColumn
    exact List.drop_left' (by simp)
  rw [this] at hi
  obtain ⟨p, hp, hp'⟩ := List.mem_flatMap.mp hi
  rw [(List.mem_replicate.mp hp').2]
  have := (List.of_mem_zip hp).1
  rw [hosts, if_pos hc] at this
  exact List.mem_map.mpr ⟨_, this, rfl⟩

/-- C08: the number of satellite rows of a host halo is exactly the number drawn for it. -/
theorem C08_count {M P : Type} (x : In M P) (H : List (Halo M P)) (ok : Ok x H) (out : Out P)
    (h : populate false x = some out) (k : ℕ) (hk : k < (hosts x.central H).length) :
    (counts x H)[k]? = some ((out.halo.drop out.ncen).count ((hosts x.central H)[k]).idx) := by
  have hcl : (counts x H).length = (hosts x.central H).length := by
    rw [counts, ok.drawSat]; simp
  rw [halo_ne_nil_of x H ok h]
  have h1 : (catalogue x H).halo.drop (catalogue x H).ncen
      = ((hosts x.central H).zip (counts x H)).flatMap fun p => List.replicate p.2 p.1.idx := by
    unfold catalogue haloColumn
    exact List.drop_left' (by simp)
  have hnd : ((hosts x.central H).map (·.idx)).Nodup := by
    have hsub : ((hosts x.central H).map (·.idx)).Sublist (H.map (·.idx)) := by
      apply List.Sublist.map
      unfold hosts; split_ifs
      · exact List.filter_sublist
      · exact List.Sublist.refl _
    rw [ok.idx] at hsub
    exact List.nodup_range.sublist hsub
  rw [h1]
  generalize counts x H = cnt at hcl
  generalize hosts x.central H = hs at hcl hk hnd
  have aux : ∀ (hs : List (Halo M P)) (cnt : List ℕ), cnt.length = hs.length →
      (hs.map (·.idx)).Nodup → ∀ (k : ℕ) (hk : k < hs.length),
      cnt[k]? = some (((hs.zip cnt).flatMap fun p => List.replicate p.2 p.1.idx).count (hs[k]).idx) := by
    intro hs
    induction hs with
    | nil => intro cnt _ _ k hk; simp at hk
    | cons a t ih =>
      intro cnt hc hnd k hk
      cases cnt with
      | nil => simp at hc
      | cons b cs =>
        rw [List.map_cons, List.nodup_cons] at hnd
        simp only [List.zip_cons_cons, List.flatMap_cons, List.count_append]
        have hcs : cs.length = t.length := by simpa using hc
        cases k with
        | zero =>
          have : List.count a.idx ((t.zip cs).flatMap fun p => List.replicate p.2 p.1.idx) = 0 := by
            rw [List.count_eq_zero]
            intro hm
            obtain ⟨p, hp, hp'⟩ := List.mem_flatMap.mp hm
            apply hnd.1
            rw [(List.mem_replicate.mp hp').2]
            exact List.mem_map.mpr ⟨_, (List.of_mem_zip hp).1, rfl⟩
          simp [this]
        | succ k =>
          have hk' : k < t.length := by simpa using hk
          have hne : (t[k]).idx ≠ a.idx := by
            intro he
            apply hnd.1
            rw [← he]
            exact List.mem_map.mpr ⟨_, List.getElem_mem hk', rfl⟩
          have h0 : List.count (t[k]).idx (List.replicate b a.idx) = 0 := by
            rw [List.count_eq_zero]
            intro hm; exact hne (List.mem_replicate.mp hm).2
          simp only [List.getElem?_cons_succ, List.getElem_cons_succ]
          rw [ih cs hcs hnd.2 k hk', h0, Nat.zero_add]
  exact aux hs cnt hcl hnd k hk

/-- a concrete run with three haloes: halo 1 has no central, halo 2 has two satellites. -/
def demoIn (central : Bool) : In ℕ ℕ where
  centres := [10, 20, 30]
  masses := [1, 2, 3]
  central := central
  cgal := [1, 0, 1]
  drawSat ms := ms.map (· - 1)
  draw _ n _ c := List.replicate n c
  junkPos n := List.replicate n 99
  junkHalo n := List.replicate n 99

/-- its haloes. -/
def demoH : List (Halo ℕ ℕ) := [⟨0, 1, 10, true⟩, ⟨1, 2, 20, false⟩, ⟨2, 3, 30, true⟩]

theorem demo_ok (c : Bool) : Ok (demoIn c) demoH where
  masses := rfl
  centres := rfl
  cgal := rfl
  idx := rfl
  drawSat := by intro ms; simp [demoIn]
  draw := by intro i n m c; simp [demoIn]
  junkPos := by intro n; simp [demoIn]
  junkHalo := by intro n; simp [demoIn]

example : populate false (demoIn true) = some ⟨[10, 30, 30, 30], [0, 2, 2, 2], 2⟩ := by rfl
example : populate false (demoIn false) = some ⟨[10, 30, 20, 30, 30], [0, 2, 1, 2, 2], 2⟩ := by rfl
example : populate true (demoIn true) = some ⟨[10, 30, 99, 99], [0, 2, 2, 2], 2⟩ := by rfl
example : (hosts true demoH).zip (counts (demoIn true) demoH)
    = [(⟨0, 1, 10, true⟩, 0)] ++ (⟨2, 3, 30, true⟩, 2) :: [] := rfl

/-! ## C09 -/

/-- Euclidean distance of two points. -/
noncomputable def dist3 (p q : Fin 3 → ℝ) : ℝ := Real.sqrt (∑ j, (p j - q j) ^ 2)

/-- C09: a satellite is placed at exactly the drawn radius, in the direction of the normal draw. -/
theorem C09_distance (rs x : ℝ) (g centre : Fin 3 → ℝ) (hg : g ≠ 0) :
    dist3 (place rs x g centre) centre = |rs * x| ∧
    ∃ t : ℝ, ∀ j, place rs x g centre j - centre j = t * g j := by
  have hpos : 0 < ∑ i, g i ^ 2 := by
    obtain ⟨i, hi⟩ := Function.ne_iff.mp hg
    apply Finset.sum_pos' (fun j _ => sq_nonneg _)
    exact ⟨i, Finset.mem_univ _, by have : g i ≠ 0 := hi; positivity⟩
  constructor
  · unfold dist3 place
    have : ∑ j, (g j * (rs * x / Real.sqrt (∑ i, g i ^ 2)) + centre j - centre j) ^ 2
        = (rs * x) ^ 2 := by
      have h2 : Real.sqrt (∑ i, g i ^ 2) ^ 2 = ∑ i, g i ^ 2 := Real.sq_sqrt hpos.le
      have h3 : ∀ j, (g j * (rs * x / Real.sqrt (∑ i, g i ^ 2)) + centre j - centre j) ^ 2
          = g j ^ 2 * ((rs * x) ^ 2 / (∑ i, g i ^ 2)) := by
        intro j; rw [add_sub_cancel_right, mul_pow, div_pow, h2]
      simp only [h3]
      rw [← Finset.sum_mul]
      field_simp
    rw [this, Real.sqrt_sq_eq_abs]
  · exact ⟨rs * x / Real.sqrt (∑ i, g i ^ 2), fun j => by unfold place; ring⟩

/-- C09: hence a satellite drawn with `0 ≤ x ≤ c` is inside the radius `r_vir = c r_s`. -/
theorem C09_inside_halo (rs c x : ℝ) (g centre : Fin 3 → ℝ) (hg : g ≠ 0) (hrs : 0 ≤ rs)
    (h0 : 0 ≤ x) (hx : x ≤ c) : dist3 (place rs x g centre) centre ≤ c * rs := by
  rw [(C09_distance rs x g centre hg).1, abs_of_nonneg (by positivity), mul_comm]
  exact mul_le_mul_of_nonneg_right hx hrs

/-- C09: periodic wrapping moves a coordinate by whole box lengths (always by -1, 0 or +1). -/
theorem C09_wrap_shift (e : Edges) (p : Fin 3 → ℝ) (j : Fin 3) :
    wrap e p j = p j ∨ wrap e p j = p j + (e.hi j - e.lo j) ∨ wrap e p j = p j - (e.hi j - e.lo j) := by
  unfold wrap wrap1
  simp only
  split_ifs
  · left; ring
  · right; left; ring
  · right; right; ring
  · left; rfl

/-- C09 partial: the wrapped coordinate is in the box provided the galaxy was at most one box length
outside it. Missing: galaxies further out, see `C09_wrap_far_outside`. -/
theorem C09_wrap_in_box_partial (e : Edges) (p : Fin 3 → ℝ) (j : Fin 3)
    (h1 : e.lo j - (e.hi j - e.lo j) ≤ p j) (h2 : p j ≤ e.hi j + (e.hi j - e.lo j)) :
    e.lo j ≤ wrap e p j ∧ wrap e p j ≤ e.hi j := by
  unfold wrap wrap1
  simp only
  split_ifs <;> constructor <;> linarith

/-- C09: coordinates already in the box are left alone. -/
theorem C09_wrap_inside (e : Edges) (p : Fin 3 → ℝ) (j : Fin 3) (h1 : e.lo j ≤ p j)
    (h2 : p j ≤ e.hi j) : wrap e p j = p j := by
  unfold wrap wrap1
  simp only
  rw [if_neg (show ¬ p j - e.lo j < 0 by linarith), if_neg (by linarith)]

/-- C09 finding: a galaxy more than one box length outside stays outside. -/
theorem C09_wrap_far_outside (e : Edges) (p : Fin 3 → ℝ) (j : Fin 3) (hbox : e.lo j < e.hi j) :
    (p j < e.lo j - (e.hi j - e.lo j) → wrap e p j < e.lo j) ∧
    (p j > e.hi j + (e.hi j - e.lo j) → e.hi j < wrap e p j) := by
  unfold wrap wrap1
  simp only
  constructor
  · intro h
    rw [if_pos (show p j - e.lo j < 0 by linarith), if_neg (by linarith)]; linarith
  · intro h
    rw [if_neg (show ¬ p j - e.lo j < 0 by linarith), if_pos (by linarith)]; linarith

/-- C09: the three accepted forms of `edges` describe the documented boxes. -/
theorem C09_edges (E lo hi : ℝ) (los his : Fin 3 → ℝ) :
    (∀ j, (Edges.scalar E).lo j = 0 ∧ (Edges.scalar E).hi j = E) ∧
    (∀ j, (Edges.pair lo hi).lo j = lo ∧ (Edges.pair lo hi).hi j = hi) ∧
    (∀ j, (Edges.full los his).lo j = los j ∧ (Edges.full los his).hi j = his j) :=
  ⟨fun _ => ⟨rfl, rfl⟩, fun _ => ⟨rfl, rfl⟩, fun _ => ⟨rfl, rfl⟩⟩

example : wrap (.scalar 10) (fun _ => -3) 0 = 7 ∧ wrap (.pair 5 10) (fun _ => 12) 1 = 7 := by
  constructor <;> norm_num [wrap, wrap1, Edges.lo, Edges.hi]

/-! ## C10 -/

/-- C10: mean number of centrals per halo is the central occupation. -/
theorem C10_mean_centrals (h : HOD.Hod) (m : ℝ) :
    haloMean h m (fun c _ => c) = h.cenOcc m := by
  unfold haloMean
  have h1 : ∀ lam : ℝ, poissonE lam (fun _ => ((1:ℕ):ℝ)) = 1 := by
    intro lam; simpa using poissonE_one lam
  have h0 : ∀ lam : ℝ, poissonE lam (fun _ => ((0:ℕ):ℝ)) = 0 := by
    intro lam; simpa using poissonE_zero lam
  simp only [h1, h0]
  split_ifs <;> simp

/-- C10: without the central condition the mean number of satellites is `ns(m)`. -/
theorem C10_mean_satellites_independent (h : HOD.Hod) (m : ℝ) (hc : h.central = false) :
    haloMean h m (fun _ s => s) = h.ns m := by
  unfold haloMean
  rw [hc]
  simp only [Bool.false_eq_true, if_false, poissonE_id]
  ring

/-- C10: with the central condition it is `central_occupation(m) * ns(m)`. -/
theorem C10_mean_satellites_conditional (h : HOD.Hod) (m : ℝ) (hc : h.central = true) :
    haloMean h m (fun _ s => s) = h.cenOcc m * h.ns m := by
  unfold haloMean
  rw [hc]
  simp only [if_true, poissonE_id]
  push_cast; ring

/-- C10 partial: so with the central condition the catalogue has the HOD's mean number of satellites
exactly at masses where every halo has a central or there is no satellite. Missing: intermediate central
occupations, where it is false. -/
theorem C10_mean_satellites_iff_partial (h : HOD.Hod) (m : ℝ) (hc : h.central = true) :
    haloMean h m (fun _ s => s) = h.ns m ↔ (h.cenOcc m = 1 ∨ h.ns m = 0) := by
  rw [C10_mean_satellites_conditional h m hc]
  constructor
  · intro h1
    by_cases h0 : h.ns m = 0
    · right; exact h0
    · left; exact mul_right_cancel₀ h0 (by rw [h1, one_mul])
  · rintro (h1 | h1) <;> rw [h1] <;> ring

/-- C10: for Zehavi05 (sharp centrals) the means agree at every mass, with or without the condition. -/
theorem C10_zehavi (p : HOD.ZehaviP) (c : Bool) (m : ℝ) :
    haloMean (HOD.zehavi05 p c) m (fun _ s => s) = (HOD.zehavi05 p c).ns m := by
  cases c with
  | false => exact C10_mean_satellites_independent _ _ rfl
  | true =>
    rw [C10_mean_satellites_iff_partial _ _ rfl]
    by_cases h : m < 10 ^ p.M_min
    · right
      simp [HOD.zehavi05, HOD.poisson, HOD.satelliteOccupation, HOD.zehaviCen, h]
    · left
      simp [HOD.zehavi05, HOD.poisson, HOD.zehaviCen, h]

/-- C10 finding: Zheng05 with the central condition has, at `m = 10**M_min` (where half the haloes have
a central), half the satellites in the catalogue that the HOD says. -/
theorem C10_zheng_half (p : HOD.ZhengP) (hM : p.M_0 < p.M_min) :
    haloMean (HOD.zheng05 p true) (10 ^ p.M_min) (fun _ s => s)
      = 1 / 2 * (HOD.zheng05 p true).ns (10 ^ p.M_min) ∧
    (HOD.zheng05 p true).ns (10 ^ p.M_min) ≠ 0 := by
  have hc : (HOD.zheng05 p true).cenOcc (10 ^ p.M_min) = 1 / 2 := by
    simp only [HOD.zheng05, HOD.poisson, HOD.zhengCen, HOD.log10]
    rw [Real.logb_rpow (by norm_num) (by norm_num), sub_self, zero_div, erf_zero]; norm_num
  refine ⟨?_, ?_⟩
  · rw [C10_mean_satellites_conditional _ _ rfl, hc]
  · have hlt : (10:ℝ) ^ p.M_0 < 10 ^ p.M_min := Real.rpow_lt_rpow_of_exponent_lt (by norm_num) hM
    have hs : 0 < HOD.zhengSat p (10 ^ p.M_min) := by
      unfold HOD.zhengSat
      rw [if_pos hlt]
      apply Real.rpow_pos_of_pos
      apply div_pos (by linarith)
      exact Real.rpow_pos_of_pos (by norm_num) _
    have hc' : HOD.zhengCen p (10 ^ p.M_min) = 1 / 2 := hc
    simp only [HOD.zheng05, HOD.poisson, HOD.satelliteOccupation, hc']
    simp only [Bool.not_false, Bool.and_self, if_true, div_one]
    positivity

example : ({} : HOD.ZhengP).M_0 < ({} : HOD.ZhengP).M_min := by norm_num

end Halomod.Populate
