import Verif.Spec.Framework
import Mathlib.Tactic

/-!
# C51: results depend on the current inputs only, not on the history of reads and assignments
-/
namespace Halomod.Framework

variable {α V : Type} [DecidableEq α] {C : Cls α V}

omit [DecidableEq α] in
/-- a value is unique. -/
theorem val_unique {st : α → V} {p : Prog α V} {v w : V} (h : C.Val st p v) : C.Val st p w → v = w := by
  induction h generalizing w with
  | ret v => intro h'; cases h'; rfl
  | input h hk ih =>
    intro h'
    cases h' with
    | input _ hk' => exact ih hk'
    | computed h2 _ _ => rcases h with h | h <;> rcases h2 with h2 | h2 <;> simp [h] at h2
  | computed h hb hk ihb ihk =>
    intro h'
    cases h' with
    | input h2 _ => rcases h with h | h <;> rcases h2 with h2 | h2 <;> simp [h] at h2
    | computed _ hb' hk' =>
      have := ihb hb'
      subst this
      exact ihk hk'

/-- a set of attributes closed under reading and without the plain attributes in `T`. -/
structure Tracked (C : Cls α V) (T S : α → Prop) : Prop where
  closed : ∀ a, S a → (C.body a).Within S
  noAttr : ∀ a, S a → C.kind a = .attr → ¬ T a

/-- `st` agrees with `s` on the recorded parameters and the plain attributes outside `T`. -/
def Agree (C : Cls α V) (T : α → Prop) (E : Set α) (st st' : α → V) : Prop :=
  (∀ p ∈ E, st p = st' p) ∧ ∀ p, C.kind p = .attr → ¬ T p → st p = st' p

/-- every cached value of a tracked quantity is right for every choice of inputs that agrees with the current
one on the recorded parameters and the plain attributes that are never assigned. -/
structure Inv (C : Cls α V) (T S : α → Prop) (s : St α V) : Prop where
  val : ∀ a u E, S a → s.cache a = some (u, E) → ∀ st : α → V, Agree C T E st s.store → C.Val st (C.body a) u
  deps : ∀ a u E, s.cache a = some (u, E) → ∀ p ∈ E, C.kind p = .param

omit [DecidableEq α] in
theorem Agree.mono {T : α → Prop} {E F : Set α} {st st' : α → V} (h : Agree C T E st st') (hF : F ⊆ E) :
    Agree C T F st st' := ⟨fun p hp => h.1 p (hF hp), h.2⟩

theorem run_sound {T S : α → Prop} (hS : Tracked C T S) {s s' : St α V} {p : Prog α V} {v : V} {D : Set α}
    (h : C.Run s p s' v D) : Inv C T S s → s'.store = s.store ∧ Inv C T S s' ∧ (∀ q ∈ D, C.kind q = .param) ∧
      (p.Within S → ∀ st : α → V, Agree C T D st s.store → C.Val st p v) := by
  induction h with
  | ret s v => intro hi; exact ⟨rfl, hi, by simp, fun _ st _ => .ret v⟩
  | @param s s' a k v D h hk ih =>
    intro hi
    obtain ⟨h1, h2, h4, h3⟩ := ih hi
    refine ⟨h1, h2, ?_, fun hw st hst => ?_⟩
    · rintro q (rfl | hq)
      · exact h
      · exact h4 q hq
    · refine .input (.inl h) ?_
      rw [hst.1 a (by simp)]
      exact h3 (hw.2 _) st (hst.mono Set.subset_union_right)
  | @attr s s' a k v D h hk ih =>
    intro hi
    obtain ⟨h1, h2, h4, h3⟩ := ih hi
    refine ⟨h1, h2, h4, fun hw st hst => .input (.inr h) ?_⟩
    rw [hst.2 a h (hS.noAttr a hw.1 h)]
    exact h3 (hw.2 _) st hst
  | @hit s s' a k u v E D h hc hk ih =>
    intro hi
    obtain ⟨h1, h2, h4, h3⟩ := ih hi
    refine ⟨h1, h2, ?_, fun hw st hst => ?_⟩
    · rintro q (hq | hq)
      · exact hi.deps a u E hc q hq
      · exact h4 q hq
    · exact .computed (.inl h) (hi.val a u E hw.1 hc st (hst.mono Set.subset_union_left))
        (h3 (hw.2 _) st (hst.mono Set.subset_union_right))
  | @miss s s₁ s' a k u v E D h hc hb hk ihb ihk =>
    intro hi
    obtain ⟨h1, h2, h4, h3⟩ := ihb hi
    have hi' : Inv C T S { s₁ with cache := Function.update s₁.cache a (some (u, E)) } := by
      constructor
      · intro b w F hb' hcb st hst
        by_cases hab : b = a
        · subst hab
          simp only [Function.update_self, Option.some.injEq, Prod.mk.injEq] at hcb
          obtain ⟨rfl, rfl⟩ := hcb
          refine h3 (hS.closed b hb') st ?_
          rw [← h1]; exact hst
        · simp only [Function.update_of_ne hab] at hcb
          exact h2.val b w F hb' hcb st hst
      · intro b w F hcb
        by_cases hab : b = a
        · subst hab
          simp only [Function.update_self, Option.some.injEq, Prod.mk.injEq] at hcb
          obtain ⟨rfl, rfl⟩ := hcb
          exact h4
        · simp only [Function.update_of_ne hab] at hcb
          exact h2.deps b w F hcb
    obtain ⟨g1, g2, g4, g3⟩ := ihk hi'
    refine ⟨g1.trans h1, g2, ?_, fun hw st hst => ?_⟩
    · rintro q (hq | hq)
      · exact h4 q hq
      · exact g4 q hq
    · refine .computed (.inl h) (h3 (hS.closed a hw.1) st (hst.mono Set.subset_union_left)) ?_
      refine g3 (hw.2 _) st ?_
      simp only [h1]
      exact hst.mono Set.subset_union_right
  | @plain s s₁ s' a k u v E D h hb hk ihb ihk =>
    intro hi
    obtain ⟨h1, h2, h4, h3⟩ := ihb hi
    obtain ⟨g1, g2, g4, g3⟩ := ihk h2
    refine ⟨g1.trans h1, g2, ?_, fun hw st hst => ?_⟩
    · rintro q (hq | hq)
      · exact h4 q hq
      · exact g4 q hq
    · refine .computed (.inr h) (h3 (hS.closed a hw.1) st (hst.mono Set.subset_union_left)) ?_
      refine g3 (hw.2 _) st ?_
      rw [h1]
      exact hst.mono Set.subset_union_right

theorem set_inv {T S : α → Prop} {s : St α V} (hi : Inv C T S s) (a : α) (v : V)
    (ha : C.kind a = .param ∨ C.kind a = .attr) (hT : C.kind a = .attr → T a) : Inv C T S (C.set s a v) := by
  classical
  have key : ∀ b u E, (C.set s a v).cache b = some (u, E) → s.cache b = some (u, E) ∧ a ∉ E := by
    intro b u E hc
    by_cases hk : C.kind a = .param
    · simp only [Cls.set, if_pos hk, Option.filter_eq_some_iff, decide_eq_true_eq] at hc
      exact hc
    · have hk' : C.kind a = .attr := by rcases ha with h | h <;> [exact absurd h hk; exact h]
      simp only [Cls.set, if_neg hk] at hc
      exact ⟨hc, fun h => hk (hi.deps b u E hc a h)⟩
  constructor
  · intro b u E hb hc st hst
    obtain ⟨h1, h2⟩ := key b u E hc
    refine hi.val b u E hb h1 st ⟨fun p hp => ?_, fun p hp hnT => ?_⟩
    · rw [hst.1 p hp]
      have : p ≠ a := fun h => h2 (h ▸ hp)
      simp [Cls.set, Function.update_of_ne this]
    · rw [hst.2 p hp hnT]
      have : p ≠ a := fun h => hnT (h ▸ hT (h ▸ hp))
      simp [Cls.set, Function.update_of_ne this]
  · intro b u E hc
    exact hi.deps b u E (key b u E hc).1

theorem hist_sound {T S : α → Prop} (hS : Tracked C T S) {s s' : St α V} {l : List (Op α V)}
    (h : C.Hist s l s') : Inv C T S s → (∀ a v, Op.set a v ∈ l → C.kind a = .attr → T a) →
    ∀ l₁ a v l₂, l = l₁ ++ .get a v :: l₂ → S a → C.Val (lastAssigned s.store l₁) (.read a .ret) v := by
  induction h with
  | nil s => intro _ _ l₁ a v l₂ h; simp at h
  | @set s s' a v l ha h ih =>
    intro hi hT l₁ b w l₂ he hb
    have hi' := set_inv hi a v ha (hT a v (by simp))
    cases l₁ with
    | nil => simp at he
    | cons o t =>
      simp only [List.cons_append, List.cons.injEq] at he
      obtain ⟨rfl, rfl⟩ := he
      exact ih hi' (fun c u hc => hT c u (by simp [hc])) t b w l₂ rfl hb
  | @get s s₁ s' a v D l hr h ih =>
    intro hi hT l₁ b w l₂ he hb
    obtain ⟨h1, h2, -, h3⟩ := run_sound hS hr hi
    cases l₁ with
    | nil =>
      simp only [List.nil_append, List.cons.injEq, Op.get.injEq] at he
      obtain ⟨⟨rfl, rfl⟩, rfl⟩ := he
      exact h3 ⟨hb, fun _ => trivial⟩ _ ⟨fun _ _ => rfl, fun _ _ _ => rfl⟩
    | cons o t =>
      simp only [List.cons_append, List.cons.injEq] at he
      obtain ⟨rfl, rfl⟩ := he
      have := ih h2 (fun c u hc => hT c u (by simp [hc])) t b w l₂ rfl hb
      rwa [h1] at this

omit [DecidableEq α] in
theorem Prog.Within.mono {P Q : α → Prop} (h : ∀ a, P a → Q a) : ∀ {p : Prog α V}, p.Within P → p.Within Q
  | .ret _, _ => trivial
  | .read _ _, hp => ⟨h _ hp.1, fun v => (hp.2 v).mono h⟩

theorem DependsOn.snoc {a b c : Node} (h : DependsOn a b) (hc : c ∈ b.reads) : DependsOn a c := by
  induction h with
  | direct h => exact .trans h (.direct hc)
  | trans h _ ih => exact .trans h (ih hc)

theorem hist_prefix {s s' : St α V} {l l₂ : List (Op α V)} : C.Hist s (l ++ l₂) s' → ∃ s₁, C.Hist s l s₁ := by
  induction l generalizing s with
  | nil => intro _; exact ⟨s, .nil s⟩
  | cons o t ih =>
    intro h
    cases h with
    | set ha h => obtain ⟨s₁, h₁⟩ := ih h; exact ⟨s₁, .set ha h₁⟩
    | get hr h => obtain ⟨s₁, h₁⟩ := ih h; exact ⟨s₁, .get hr h₁⟩

/-- C51: in any history of assignments and reads on a new object, in any order and any number, every read
of a quantity returns the value recomputed from the inputs last assigned before it — provided no plain
attribute the quantity depends on was assigned before. -/
theorem C51_reads_are_current {V : Type} {C : Cls Node V} (hC : IsHalo C) (st : Node → V)
    (l₁ : List (Op Node V)) (a : Node) (v : V) (l₂ : List (Op Node V)) {s' : St Node V}
    (h : C.Hist (fresh st) (l₁ ++ .get a v :: l₂) s')
    (hT : ∀ b w, Op.set b w ∈ l₁ → b.kind = .attr → ¬ DependsOn a b) :
    C.Val (lastAssigned st l₁) (.read a .ret) v := by
  by_cases hka : a.kind = .attr
  · -- a plain attribute itself: the stored value
    have hstore : ∀ (l : List (Op Node V)) (s s' : St Node V), C.Hist s l s' → ∀ l₁ l₂ v,
        l = l₁ ++ .get a v :: l₂ → v = lastAssigned s.store l₁ a := by
      have hrun : ∀ {s s' : St Node V} {p : Prog Node V} {v : V} {D : Set Node}, C.Run s p s' v D →
          s'.store = s.store := by
        intro s s' p v D hr
        induction hr with
        | ret s v => rfl
        | param _ _ ih => exact ih
        | attr _ _ ih => exact ih
        | hit _ _ _ ih => exact ih
        | miss _ _ _ _ ihb ihk => exact ihk.trans ihb
        | plain _ _ _ ihb ihk => exact ihk.trans ihb
      intro l s s' h
      induction h with
      | nil s => intro l₁ l₂ v h; simp at h
      | @set s s' b w l ha h ih =>
        intro l₁ l₂ v he
        cases l₁ with
        | nil => simp at he
        | cons o t =>
          simp only [List.cons_append, List.cons.injEq] at he
          obtain ⟨rfl, rfl⟩ := he
          exact ih t l₂ v rfl
      | @get s s₁ s' b w D l hr h ih =>
        intro l₁ l₂ v he
        cases l₁ with
        | nil =>
          simp only [List.nil_append, List.cons.injEq, Op.get.injEq] at he
          obtain ⟨⟨rfl, rfl⟩, rfl⟩ := he
          cases hr with
          | param h _ => rw [hC.kind, hka] at h; cases h
          | attr h hk => cases hk; rfl
          | hit h _ _ => rw [hC.kind, hka] at h; cases h
          | miss h _ _ _ => rw [hC.kind, hka] at h; cases h
          | plain h _ _ => rw [hC.kind, hka] at h; cases h
        | cons o t =>
          simp only [List.cons_append, List.cons.injEq] at he
          obtain ⟨rfl, rfl⟩ := he
          have := ih t l₂ v rfl
          rwa [hrun hr] at this
    rw [hstore _ _ _ h l₁ l₂ v rfl]
    exact .input (.inr (by rw [hC.kind, hka])) (.ret _)
  let T : Node → Prop := fun b => b.kind = .attr ∧ ¬ DependsOn a b
  let S : Node → Prop := fun b => b = a ∨ DependsOn a b
  have hS : Tracked C T S := by
    constructor
    · intro b hb
      refine (hC.reads b).mono fun c hc => ?_
      rcases hb with rfl | hb
      · exact .inr (.direct hc)
      · exact .inr (hb.snoc hc)
    · rintro b (rfl | hb) hk ⟨-, h2⟩
      · rw [hC.kind] at hk; exact hka hk
      · exact h2 hb
  have hi : Inv C T S (fresh st) := ⟨by simp [fresh], by simp [fresh]⟩
  have h' : C.Hist (fresh st) ((l₁ ++ [.get a v]) ++ l₂) s' := by simpa using h
  obtain ⟨s₁, h₁⟩ := hist_prefix h'
  refine hist_sound hS h₁ hi (fun b w hb hk => ?_) l₁ a v [] rfl (.inl rfl)
  rw [hC.kind] at hk
  simp only [List.mem_append, List.mem_singleton, reduceCtorEq, or_false] at hb
  exact ⟨hk, hT b w hb hk⟩

/-- C51: in particular, when only parameters are assigned, every read of every quantity is current. -/
theorem C51_parameters_take_effect {V : Type} {C : Cls Node V} (hC : IsHalo C) (st : Node → V)
    (l₁ : List (Op Node V)) (a : Node) (v : V) (l₂ : List (Op Node V)) {s' : St Node V}
    (h : C.Hist (fresh st) (l₁ ++ .get a v :: l₂) s') (hp : ∀ b w, Op.set b w ∈ l₁ → b.kind = .param) :
    C.Val (lastAssigned st l₁) (.read a .ret) v :=
  C51_reads_are_current hC st l₁ a v l₂ h fun b w hb hk => by rw [hp b w hb] at hk; cases hk

/-- the graph of reads has no cycle. -/
theorem rank_lt (a b : Node) (h : b ∈ a.reads) : b.rank < a.rank := by
  have : ∀ a : Node, a.reads.all (fun b => decide (b.rank < a.rank)) = true := by
    intro a; cases a <;> rfl
  have := List.all_eq_true.1 (this a) b h
  simpa using this

theorem run_total {V : Type} {C : Cls Node V} (hC : IsHalo C) (n : ℕ) : ∀ (p : Prog Node V),
    p.Within (fun b => b.rank < n) → ∀ s : St Node V, ∃ s' v D, C.Run s p s' v D := by
  induction n using Nat.strong_induction_on with
  | _ n ihn =>
  intro p
  induction p with
  | ret v => intro _ s; exact ⟨s, v, _, .ret s v⟩
  | read a k ihk =>
    intro hw s
    have hbody : ∀ s : St Node V, ∃ s' v D, C.Run s (C.body a) s' v D := by
      refine ihn a.rank hw.1 _ ((hC.reads a).mono fun b hb => rank_lt a b hb)
    have hk := C.kind a
    rcases hk' : C.kind a with _ | _ | _ | _
    · obtain ⟨s', v, D, h⟩ := ihk (s.store a) (hw.2 _) s
      exact ⟨s', v, _, .attr hk' h⟩
    · obtain ⟨s', v, D, h⟩ := ihk (s.store a) (hw.2 _) s
      exact ⟨s', v, _, .param hk' h⟩
    · rcases hc : s.cache a with _ | ⟨u, E⟩
      · obtain ⟨s₁, u, E, hb⟩ := hbody s
        obtain ⟨s', v, D, h⟩ := ihk u (hw.2 _) { s₁ with cache := Function.update s₁.cache a (some (u, E)) }
        exact ⟨s', v, _, .miss hk' hc hb h⟩
      · obtain ⟨s', v, D, h⟩ := ihk u (hw.2 _) s
        exact ⟨s', v, _, .hit hk' hc h⟩
    · obtain ⟨s₁, u, E, hb⟩ := hbody s
      obtain ⟨s', v, D, h⟩ := ihk u (hw.2 _) s₁
      exact ⟨s', v, _, .plain hk' hb h⟩

/-- C51: the quantities do not wait for each other in a circle: in every state, reading any attribute
terminates with a value, and the reference value is unique. -/
theorem C51_reads_terminate {V : Type} {C : Cls Node V} (hC : IsHalo C) (s : St Node V) (a : Node) :
    (∃ s' v D, C.Run s (.read a .ret) s' v D) ∧
    ∀ st v w, C.Val st (.read a .ret) v → C.Val st (.read a .ret) w → v = w :=
  ⟨run_total hC (a.rank + 1) (.read a .ret) ⟨Nat.lt_succ_self _, fun _ => trivial⟩ s, fun _ _ _ h h' => val_unique h h'⟩

/-- the quantities that depend on `force_unity_dm_bias`. -/
def unityDep : Node → Bool
  | .bias_effective_matter | .corr_2h_auto_matter_fnc | .power_2h_auto_matter_fnc | .corr_2h_auto_matter
  | .power_2h_auto_matter | .corr_auto_matter_fnc | .power_auto_matter_fnc | .corr_auto_matter
  | .power_auto_matter | .angular_corr_matter => true
  | _ => false

/-- C51: `force_unity_dm_bias` is the only plain attribute apart from the two private limits of the
separation table, and ten matter quantities depend on it. -/
theorem C51_untracked_dependents :
    (∀ a : Node, a.kind = .attr ↔ a = .force_unity_dm_bias ∨ a = ._logr_table_min ∨ a = ._logr_table_max) ∧
    ∀ a : Node, DependsOn a .force_unity_dm_bias ↔
      a ∈ [.bias_effective_matter, .corr_2h_auto_matter_fnc, .power_2h_auto_matter_fnc, .corr_2h_auto_matter,
        .power_2h_auto_matter, .corr_auto_matter_fnc, .power_auto_matter_fnc, .corr_auto_matter,
        .power_auto_matter, .angular_corr_matter] := by
  refine ⟨fun a => by cases a <;> simp [Node.kind], fun a => ⟨fun h => ?_, fun h => ?_⟩⟩
  · have close : ∀ a : Node,
        (!(a.reads.any fun c => decide (c = .force_unity_dm_bias) || unityDep c) || unityDep a) = true := by
      intro a; cases a <;> rfl
    have key : ∀ a b, DependsOn a b → b = .force_unity_dm_bias → unityDep a = true := by
      intro a b h
      induction h with
      | @direct a b h =>
        rintro rfl
        have := close a
        rcases Bool.or_eq_true _ _ ▸ this with h' | h'
        · simp only [Bool.not_eq_true', List.any_eq_false] at h'
          exact absurd (h' _ h) (by simp)
        · exact h'
      | @trans a c b h _ ih =>
        intro hb
        have := close a
        rcases Bool.or_eq_true _ _ ▸ this with h' | h'
        · simp only [Bool.not_eq_true', List.any_eq_false] at h'
          exact absurd (h' _ h) (by simp [ih hb])
        · exact h'
    have := key a _ h rfl
    cases a <;> first | (cases this; done) | simp
  · have h0 : DependsOn .bias_effective_matter .force_unity_dm_bias := .direct (by decide)
    have h1 : DependsOn .corr_2h_auto_matter_fnc .force_unity_dm_bias := .direct (by decide)
    have h2 : DependsOn .power_2h_auto_matter_fnc .force_unity_dm_bias := .direct (by decide)
    have h3 : DependsOn .corr_auto_matter_fnc .force_unity_dm_bias := .trans (by decide) h1
    have h4 : DependsOn .power_auto_matter_fnc .force_unity_dm_bias := .trans (by decide) h2
    have h5 : DependsOn .corr_2h_auto_matter .force_unity_dm_bias := .trans (by decide) h1
    have h6 : DependsOn .power_2h_auto_matter .force_unity_dm_bias := .trans (by decide) h2
    have h7 : DependsOn .corr_auto_matter .force_unity_dm_bias := .trans (by decide) h3
    have h8 : DependsOn .power_auto_matter .force_unity_dm_bias := .trans (by decide) h4
    have h9 : DependsOn .angular_corr_matter .force_unity_dm_bias := .trans (by decide) h3
    simp only [List.mem_cons, List.not_mem_nil, or_false] at h
    rcases h with rfl | rfl | rfl | rfl | rfl | rfl | rfl | rfl | rfl | rfl <;> assumption

/-- a class with the declarations of /repo in which `bias_effective_matter` is computed as in
halo_model.py:891-896 (1 when the flag is set, otherwise the integral, here 2 of `mean_density_in_halos`), and
everything else is a constant. -/
def demo : Cls Node ℕ where
  kind := Node.kind
  body
    | .bias_effective_matter => .read .force_unity_dm_bias fun v =>
        if v = 1 then .ret 1 else .read .mean_density_in_halos .ret
    | _ => .ret 2

theorem demo_isHalo : IsHalo demo := by
  refine ⟨rfl, fun a => ?_⟩
  cases a
  case bias_effective_matter =>
    refine ⟨by decide, fun v => ?_⟩
    simp only
    split_ifs
    · trivial
    · exact ⟨by decide, fun _ => trivial⟩
  all_goals trivial

/-- C51 (finding): a changed `force_unity_dm_bias` is ignored once `bias_effective_matter` has been read: there is a
history in which the second read returns the old value although the value for the current inputs is another. -/
theorem C51_force_unity_is_stale : ∃ s', demo.Hist (fresh fun _ => 0)
      [.get .bias_effective_matter 2, .set .force_unity_dm_bias 1, .get .bias_effective_matter 2] s' ∧
    demo.Val (lastAssigned (fun _ => 0) [.get .bias_effective_matter 2, .set .force_unity_dm_bias 1])
      (.read .bias_effective_matter .ret) 1 := by
  refine ⟨_, .get (.miss rfl rfl (.attr rfl (.miss rfl rfl (.ret _ 2) (.ret _ _))) (.ret _ _))
    (.set (.inr rfl) (.get (.hit (u := 2) (E := ∅ ∪ ∅) rfl ?_ (.ret _ _)) (.nil _))), ?_⟩
  · simp [Cls.set, demo, Node.kind]
  · refine .computed (.inl rfl) (u := 1) (.input (.inr rfl) ?_) (.ret _)
    exact .ret 1

/-- `k_hm` computed from the first of its parameters, everything else constant. -/
def demo2 : Cls Node ℕ where
  kind := Node.kind
  body
    | .k_hm => .read .hm_logk_min .ret
    | _ => .ret 0

/-- a history that meets the hypotheses of the theorems above: a cached value is forgotten when a parameter it
was computed from is set, and the next read gives the new value. -/
example : IsHalo demo2 ∧ (∃ s', demo2.Hist (fresh fun _ => 0)
      ([.get .k_hm 0, .set .hm_logk_min 5, .set .hm_logk_max 7] ++ .get .k_hm 5 :: []) s') ∧
    ∀ b w, Op.set b w ∈ ([.get .k_hm 0, .set .hm_logk_min 5, .set .hm_logk_max 7] : List (Op Node ℕ)) →
      b.kind = .param := by
  refine ⟨⟨rfl, fun a => ?_⟩, ⟨_, .get (.miss rfl rfl (.param rfl (.ret _ _)) (.ret _ _))
    (.set (.inl rfl) (.set (.inl rfl) (.get (.miss rfl ?_ (.param rfl (.ret _ _)) (.ret _ _)) (.nil _))))⟩, ?_⟩
  · cases a
    case k_hm => exact ⟨by decide, fun _ => trivial⟩
    all_goals trivial
  · simp [Cls.set, demo2, Node.kind]
  · intro b w h
    simp only [List.mem_cons, Op.set.injEq, reduceCtorEq, List.not_mem_nil, or_false, false_or] at h
    rcases h with ⟨rfl, -⟩ | ⟨rfl, -⟩ <;> rfl

end Halomod.Framework
