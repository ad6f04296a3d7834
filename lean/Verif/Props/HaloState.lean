import Verif.Model.HaloState
import Verif.Props.Tools2

/-! # C37, C38: matching the tracer density -/
namespace Halomod.HaloState

open Finset

variable {Rest RestKw : Type}

/-- what is assumed of the framework: assigning a dictionary gives its keys the new values, assigning
`M_min` twice is assigning it once, and an update without other keywords changes no other parameter. -/
structure World.Ok (X : World Rest RestKw) (noRest : RestKw) : Prop where
  new : ∀ d p k v, p k = some v → X.setDict d p k = some v
  twice : ∀ d a b, X.setDict (X.setDict d (mminDict a)) (mminDict b) = X.setDict d (mminDict b)
  rest : ∀ r, X.setRest r noRest = r

/-- the parameters of the clone used by the solver: `M_min` set to the grid's minimum mass, finer grid. -/
noncomputable def solveAt (X : World Rest RestKw) (s : St Rest) (n : ℝ) : Except Err ℝ :=
  X.solve (X.dlog s.rest) (X.setDict s.hod (mminDict (X.Mmin s.rest))) n

theorem mminDict_get (x : ℝ) : mminDict x "M_min" = some x := by simp [mminDict]

theorem find_eq (X : World Rest RestKw) (noRest : RestKw) (hX : X.Ok noRest) (fuel : ℕ) (s : St Rest) (n : ℝ) :
    find X noRest (fuel + 2) s n =
      if X.valid (X.dlog s.rest) (X.setDict s.hod (mminDict (X.Mmin s.rest))) then some (solveAt X s n)
      else some (.error .invalid) := by
  have hn : newDensity { s with rest := X.dlog s.rest }
      (⟨none, some (mminDict (X.Mmin s.rest)), noRest⟩ : Upd RestKw) = none := by
    simp [newDensity, mminDict_get]
  rw [find]
  rw [update]
  simp only [hn, superUpdate, hX.rest, Option.elim_some]
  split_ifs with hv
  · rfl
  · rfl

/-- the outcome of an update, once the recursion is unfolded. -/
theorem update_eq (X : World Rest RestKw) (noRest : RestKw) (hX : X.Ok noRest) (fuel : ℕ) (s : St Rest)
    (u : Upd RestKw) :
    update X noRest (fuel + 3) s u =
      (let s2 := superUpdate X { s with density := newDensity s u } u
       if X.valid s2.rest s2.hod then
         match newDensity s u with
         | none => some (.ok (), s2)
         | some n =>
           match (if X.valid (X.dlog s2.rest) (X.setDict s2.hod (mminDict (X.Mmin s2.rest)))
              then solveAt X s2 n else .error .invalid) with
           | .error e => some (.error e, s2)
           | .ok m =>
             if X.valid s2.rest (X.setDict s2.hod (mminDict m)) then
               some (.ok (), { s2 with hod := X.setDict s2.hod (mminDict m) })
             else some (.error .invalid, { s2 with hod := X.setDict s2.hod (mminDict m) })
       else some (.error .invalid, s2)) := by
  rw [update]
  have hsd : (superUpdate X { s with density := newDensity s u } u).density = newDensity s u := rfl
  simp only [hsd]
  generalize superUpdate X { s with density := newDensity s u } u = s2
  by_cases hv : X.valid s2.rest s2.hod = true
  · simp only [hv, if_true]
    cases hd : newDensity s u with
    | none => rfl
    | some n =>
      simp only
      rw [find_eq X noRest hX]
      by_cases h2 : X.valid (X.dlog s2.rest) (X.setDict s2.hod (mminDict (X.Mmin s2.rest))) = true
      · simp only [h2, if_true]
        cases solveAt X s2 n <;> rfl
      · simp only [h2]
        rfl
  · simp only [hv]
    rfl

/-- C37: the solver never recurses forever: three nested calls are always enough, and more never change
the outcome. -/
theorem C37_terminates (X : World Rest RestKw) (noRest : RestKw) (hX : X.Ok noRest) (s : St Rest)
    (u : Upd RestKw) (fuel : ℕ) (hf : 3 ≤ fuel) :
    update X noRest fuel s u = update X noRest 3 s u ∧ update X noRest fuel s u ≠ none := by
  obtain ⟨f, rfl⟩ : ∃ f, fuel = f + 3 := ⟨fuel - 3, by omega⟩
  rw [update_eq X noRest hX f, update_eq X noRest hX 0]
  refine ⟨rfl, ?_⟩
  simp only
  split
  · cases newDensity s u with
    | none => simp
    | some n =>
      simp only
      split <;> [simp; (split <;> simp)]
  · simp

/-- outcome of a call: `ok`, or the exception; and the object afterwards. -/
def Updates (X : World Rest RestKw) (noRest : RestKw) (s : St Rest) (u : Upd RestKw) (o : Except Err Unit)
    (s' : St Rest) : Prop := update X noRest 3 s u = some (o, s')

/-- the model's `M_min` is what the solver gives for its density and its *current* parameters. -/
def Matched (X : World Rest RestKw) (s : St Rest) : Prop :=
  ∀ n, s.density = some n → ∃ m, s.hod "M_min" = some m ∧ solveAt X s n = .ok m

theorem matched_set (X : World Rest RestKw) (noRest : RestKw) (hX : X.Ok noRest) (s : St Rest) (n m : ℝ)
    (hd : s.density = some n) (hm : solveAt X s n = .ok m) :
    Matched X { s with hod := X.setDict s.hod (mminDict m) } := by
  intro n' hn'
  simp only at hn'
  rw [hd] at hn'
  cases hn'
  refine ⟨m, hX.new _ _ _ _ (mminDict_get m), ?_⟩
  unfold solveAt at hm ⊢
  simp only
  rw [hX.twice]; exact hm

/-- C37: after every successful update — whatever was updated — a model with a tracer density has the
`M_min` the solver finds for that density and the current parameters, and the density is the one last
requested. -/
theorem C37_update (X : World Rest RestKw) (noRest : RestKw) (hX : X.Ok noRest) (s s' : St Rest)
    (u : Upd RestKw) (h : Updates X noRest s u (.ok ()) s') :
    Matched X s' ∧ s'.density = newDensity s u ∧ s'.rest = X.setRest s.rest u.rest := by
  unfold Updates at h
  rw [update_eq X noRest hX 0] at h
  simp only at h
  split at h
  · cases hd : newDensity s u with
    | none =>
      rw [hd] at h
      simp only [Option.some.injEq, Prod.mk.injEq, true_and] at h
      subst h
      refine ⟨fun n hn => ?_, ?_, rfl⟩
      · simp [superUpdate] at hn
      · simp [superUpdate]
    | some n =>
      rw [hd] at h
      simp only at h
      split at h
      · simp at h
      · rename_i m hm
        split at hm
        · split at h
          · simp only [Option.some.injEq, Prod.mk.injEq, true_and] at h
            subst h
            exact ⟨matched_set X noRest hX _ n m (by simp [superUpdate]) hm, by simp [superUpdate], rfl⟩
          · simp at h
        · simp at hm
  · simp at h

/-- run a history of updates; a call that raises leaves its object behind and the next call continues
with it. The outcome of the last call is kept. -/
inductive Runs (X : World Rest RestKw) (noRest : RestKw) : St Rest → List (Upd RestKw) → Except Err Unit →
    St Rest → Prop
  | nil (s) : Runs X noRest s [] (.ok ()) s
  | snoc {s us o s1 u o' s2} (h1 : Runs X noRest s us o s1) (h2 : Updates X noRest s1 u o' s2) :
      Runs X noRest s (us ++ [u]) o' s2

/-- C37: over every history of updates starting from a constructed model, with failing calls in between,
whenever the last call succeeded the model's `M_min` matches its density and its current parameters. -/
theorem C37_history (X : World Rest RestKw) (noRest : RestKw) (hX : X.Ok noRest) (rest : Rest) (hod : Dict)
    (density : Option ℝ) (fuel : ℕ) (s0 : St Rest)
    (hc : construct X noRest (fuel + 2) rest hod density = some (.ok (), s0))
    (us : List (Upd RestKw)) (s : St Rest) (h : Runs X noRest s0 us (.ok ()) s) : Matched X s := by
  cases h with
  | nil =>
    unfold construct at hc
    simp only at hc
    cases density with
    | none =>
      simp only [Option.some.injEq, Prod.mk.injEq] at hc
      obtain ⟨_, rfl⟩ := hc
      intro n hn; simp at hn
    | some n =>
      simp only at hc
      rw [find_eq X noRest hX] at hc
      split_ifs at hc
      · cases hq : solveAt X ⟨rest, hod, some n⟩ n with
        | error e => rw [hq] at hc; simp at hc
        | ok m =>
          rw [hq] at hc
          simp only [Option.some.injEq, Prod.mk.injEq] at hc
          obtain ⟨_, rfl⟩ := hc
          exact matched_set X noRest hX ⟨rest, hod, some n⟩ n m rfl hq
      · simp at hc
  | snoc h1 h2 => exact (C37_update X noRest hX _ _ _ h2).1

/-- C37: giving `M_min` (and no density) releases the density constraint: the model then has exactly that
`M_min`. -/
theorem C37_release (X : World Rest RestKw) (noRest : RestKw) (hX : X.Ok noRest) (s s' : St Rest)
    (p : Dict) (x : ℝ) (r : RestKw) (hp : p "M_min" = some x)
    (h : Updates X noRest s ⟨none, some p, r⟩ (.ok ()) s') :
    s'.density = none ∧ s'.hod "M_min" = some x := by
  have hd : newDensity s (⟨none, some p, r⟩ : Upd RestKw) = none := by simp [newDensity, hp]
  unfold Updates at h
  rw [update_eq X noRest hX 0] at h
  simp only [hd, superUpdate] at h
  split_ifs at h with hv
  · simp only [Option.some.injEq, Prod.mk.injEq, true_and] at h
    subst h
    exact ⟨rfl, hX.new _ _ _ _ hp⟩
  · simp at h

/-- C37: updating other parameters keeps the requested density; a model without one is left without one and
keeps its HOD parameters. -/
theorem C37_keep (X : World Rest RestKw) (noRest : RestKw) (hX : X.Ok noRest) (s s' : St Rest) (r : RestKw)
    (h : Updates X noRest s ⟨none, none, r⟩ (.ok ()) s') :
    s'.density = s.density ∧ (s.density = none → s'.hod = s.hod) := by
  refine ⟨(C37_update X noRest hX _ _ _ h).2.1, fun hd => ?_⟩
  have hnd : newDensity s (⟨none, none, r⟩ : Upd RestKw) = none := by simp [newDensity, hd]
  unfold Updates at h
  rw [update_eq X noRest hX 0] at h
  simp only [hnd, superUpdate] at h
  split_ifs at h
  · simp only [Option.some.injEq, Prod.mk.injEq, true_and] at h
    subst h; rfl
  · simp at h

/-- C37: when both a density and `M_min` are given the density wins: `M_min` is the solver's. -/
theorem C37_both (X : World Rest RestKw) (noRest : RestKw) (hX : X.Ok noRest) (s s' : St Rest) (n : ℝ)
    (p : Dict) (r : RestKw) (h : Updates X noRest s ⟨some (some n), some p, r⟩ (.ok ()) s') :
    s'.density = some n ∧ ∃ m, s'.hod "M_min" = some m ∧ solveAt X s' n = .ok m := by
  have h1 := C37_update X noRest hX _ _ _ h
  have hd : s'.density = some n := h1.2.1
  exact ⟨hd, h1.1 n hd⟩

/-- C37: the `M_min` the solver finds does not depend on the `M_min` the model currently has. -/
theorem C37_solution_independent_of_mmin (X : World Rest RestKw) (noRest : RestKw) (hX : X.Ok noRest)
    (s : St Rest) (a n : ℝ) :
    solveAt X { s with hod := X.setDict s.hod (mminDict a) } n = solveAt X s n := by
  unfold solveAt
  simp only
  rw [hX.twice]

/-- C37 finding: an update whose density cannot be reached raises, but the object keeps the new density
together with the old `M_min`. -/
theorem C37_failed_update (X : World Rest RestKw) (noRest : RestKw) (hX : X.Ok noRest) (s : St Rest) (n : ℝ)
    (hv : X.valid (X.setRest s.rest noRest) s.hod = true)
    (hv2 : X.valid (X.dlog s.rest) (X.setDict s.hod (mminDict (X.Mmin s.rest))) = true)
    (hfail : solveAt X s n = .error .ng) :
    Updates X noRest s ⟨some (some n), none, noRest⟩ (.error .ng) { s with density := some n } ∧
    ¬ Matched X { s with density := some n } := by
  constructor
  · unfold Updates
    rw [update_eq X noRest hX 0]
    have hd : newDensity s (⟨some (some n), none, noRest⟩ : Upd RestKw) = some n := rfl
    simp only [hd, superUpdate, hX.rest, Option.elim_none] at hv ⊢
    rw [if_pos hv, if_pos hv2]
    have : solveAt X { rest := s.rest, hod := s.hod, density := some n } n = .error .ng := hfail
    rw [this]
  · intro hm
    obtain ⟨m, _, h2⟩ := hm n rfl
    have : solveAt X { s with density := some n } n = .error .ng := hfail
    rw [this] at h2
    simp at h2

/-- C37 finding: assigning an attribute directly (`model.z = ..`, which does not go through `update`) does
not solve again: if the new parameters need another `M_min` the model no longer matches its density. -/
theorem C37_assignment_stale (X : World Rest RestKw) (s : St Rest)
    (n m m' : ℝ) (r : RestKw) (hd : s.density = some n) (hm : s.hod "M_min" = some m)
    (hr : solveAt X { s with rest := X.setRest s.rest r } n = .ok m') (hne : m ≠ m') :
    ¬ Matched X { s with rest := X.setRest s.rest r } := by
  intro h
  obtain ⟨q, h1, h2⟩ := h n hd
  simp only at h1
  rw [hm] at h1
  rw [hr] at h2
  cases h1; cases h2
  exact hne rfl

/-! ### the assumptions are satisfiable -/

/-- a framework that merges dictionaries; the solver returns `n + 10 * rest` and fails above 100. -/
noncomputable def demoWorld : World ℝ (Option ℝ) where
  setDict := fun d p k => (p k).orElse fun _ => d k
  setRest := fun r kw => kw.getD r
  valid := fun _ _ => true
  Mmin := fun _ => 8
  dlog := id
  solve := fun r _ n => by classical exact if n > 100 then .error .ng else .ok (n + 10 * r)

theorem demoWorld_ok : demoWorld.Ok none where
  new := by intro d p k v h; simp [demoWorld, h]
  twice := by
    intro d a b
    funext k
    by_cases hk : k = "M_min" <;> simp [demoWorld, mminDict, hk]
  rest := by intro r; rfl

/-- a history: density 5 asked for, then the other parameter changed, re-solved: `M_min = 5 + 10 * 2`. -/
example : ∃ s, Runs demoWorld none ⟨1, fun _ => none, none⟩
    [⟨some (some 5), none, none⟩, ⟨none, none, some 2⟩] (.ok ()) s ∧ s.hod "M_min" = some 25 := by
  classical
  have h1 : Updates demoWorld none ⟨1, fun _ => none, none⟩ ⟨some (some 5), none, none⟩ (.ok ())
      ⟨1, demoWorld.setDict (fun _ => none) (mminDict 15), some 5⟩ := by
    unfold Updates
    rw [update_eq _ _ demoWorld_ok 0]
    norm_num [newDensity, superUpdate, solveAt, demoWorld]
  have h2 : Updates demoWorld none ⟨1, demoWorld.setDict (fun _ => none) (mminDict 15), some 5⟩
      ⟨none, none, some 2⟩ (.ok ())
      ⟨2, demoWorld.setDict (demoWorld.setDict (fun _ => none) (mminDict 15)) (mminDict 25), some 5⟩ := by
    unfold Updates
    rw [update_eq _ _ demoWorld_ok 0]
    norm_num [newDensity, superUpdate, solveAt, demoWorld]
  exact ⟨_, Runs.snoc (Runs.snoc (Runs.nil _) h1) h2, by simp [demoWorld, mminDict]⟩

end Halomod.HaloState
