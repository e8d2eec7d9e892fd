import Verif.Props.Env
import Verif.Props.Compile
import Verif.Lemmas.Closed

/-!
# Check of constraints, the environment of a created variable, and lost updates

Theorems about functions that other modules only use: what `Check` of a constraint accepts (C33), which
environment a creation call uses (C21), and what concurrent creation loses (C22).
-/

namespace Verif

section Check
variable {R : Type} [Field R] [LinearOrder R] {r k r' k' : ℕ}

/-- `ScalarConstraint.Check` accepts exactly the constraints with a sense of the three known ones. -/
theorem scon_check_iff {c : SCon R} (hl : c.lhs.Canon) (hr : c.rhs.Canon) :
    c.check = .ok () ↔ c.sense.OK := by
  unfold SCon.check
  rw [(good_of_univ hl).check, Go.ok_bind, (good_of_univ hr).check, Go.ok_bind]
  exact sense_check _

/-- `VectorConstraint.Check` accepts exactly the constraints with a known sense and sides of equal length,
or one side of length one. -/
theorem vcon_check_iff {c : VCon R} (hl : (Expr.v c.lhs).Canon) (hr : (Expr.v c.rhs).Canon)
    (h1 : (Expr.v c.lhs).Shape r 1) (h2 : (Expr.v c.rhs).Shape r' 1) (hr0 : 0 < r) (hr0' : 0 < r') :
    c.check = .ok () ↔ c.sense.OK ∧ (r = r' ∨ r = 1 ∨ r' = 1) := by
  have c1 : c.lhs.check = .ok () := Expr.check_ok hl h1 hr0
  have c2 : c.rhs.check = .ok () := Expr.check_ok hr h2 hr0'
  have d1 : c.lhs.dims = .ok (r, 1) := Expr.dims_ok hl h1 hr0
  have d2 : c.rhs.dims = .ok (r', 1) := Expr.dims_ok hr h2 hr0'
  unfold VCon.check
  rw [c1, Go.ok_bind, c2, Go.ok_bind, d1, d2]
  by_cases hs : c.sense.OK
  · rw [hs.check, Go.ok_bind, Go.ok_bind, Go.ok_bind]
    simp only [hs, true_and, checkDimAdd, isScalarDims, decide_eq_true_eq, Prod.mk.injEq,
      and_true]
    by_cases h : r = r' ∨ r = 1 ∨ r' = 1
    · simp [h, Go.pure_eq]
    · simp [h, Go.throw_eq]
  · have : ∀ u, c.sense.check ≠ .ok u := fun u h => hs ((sense_check _).mp h)
    cases hc : c.sense.check with
    | ok u => exact absurd hc (this u)
    | error x => simp [hs, Go.err_bind]

/-- `MatrixConstraint.Check` accepts exactly the constraints with a known sense and sides with the same
numbers of rows and of columns. -/
theorem mcon_check_iff {c : MCon R} (hl : (Expr.m c.lhs).Canon) (hr : (Expr.m c.rhs).Canon)
    (h1 : (Expr.m c.lhs).Shape r k) (h2 : (Expr.m c.rhs).Shape r' k') (hr0 : 0 < r) (hr0' : 0 < r') :
    c.check = .ok () ↔ c.sense.OK ∧ r = r' ∧ k = k' := by
  have c1 : c.lhs.check = .ok () := Expr.check_ok hl h1 hr0
  have c2 : c.rhs.check = .ok () := Expr.check_ok hr h2 hr0'
  have d1 : c.lhs.dims = .ok (r, k) := Expr.dims_ok hl h1 hr0
  have d2 : c.rhs.dims = .ok (r', k') := Expr.dims_ok hr h2 hr0'
  unfold MCon.check
  rw [c1, Go.ok_bind, c2, Go.ok_bind, d1, d2, Go.ok_bind, Go.ok_bind]
  by_cases h3 : r = r'
  · by_cases h4 : k = k'
    · simp only [h3, h4, ne_eq, not_true_eq_false, if_false, Go.pure_eq, Go.ok_bind, and_self, and_true]
      exact sense_check _
    · simp [h3, h4, Go.throw_eq, Go.err_bind]
  · simp [h3, Go.throw_eq, Go.err_bind]

/-- A matrix constraint whose sides have different dimensions is rejected with a dimension error. -/
theorem mcon_check_dimension {c : MCon R} (hl : (Expr.m c.lhs).Canon) (hr : (Expr.m c.rhs).Canon)
    (h1 : (Expr.m c.lhs).Shape r k) (h2 : (Expr.m c.rhs).Shape r' k') (hr0 : 0 < r) (hr0' : 0 < r')
    (h : r ≠ r' ∨ k ≠ k') : c.check = .error .dimension := by
  have c1 : c.lhs.check = .ok () := Expr.check_ok hl h1 hr0
  have c2 : c.rhs.check = .ok () := Expr.check_ok hr h2 hr0'
  have d1 : c.lhs.dims = .ok (r, k) := Expr.dims_ok hl h1 hr0
  have d2 : c.rhs.dims = .ok (r', k') := Expr.dims_ok hr h2 hr0'
  unfold MCon.check
  rw [c1, Go.ok_bind, c2, Go.ok_bind, d1, d2, Go.ok_bind, Go.ok_bind]
  by_cases h3 : r = r'
  · have h4 : k ≠ k' := h.resolve_left (by simpa using h3)
    simp [h3, h4, Go.throw_eq, Go.err_bind]
  · simp [h3, Go.throw_eq, Go.err_bind]

end Check

section Create
variable {R : Type} [GoNum R]

/-- The calls that create variables, with the environments given to them. -/
def EnvOp.given : EnvOp R → Option (List ℕ)
  | .newContinuous envs => some envs
  | .newBinary envs => some envs
  | .newVector _ envs => some envs
  | .newMatrix _ _ envs => some envs
  | .track _ _ => none

theorem newVar_at (b : Bool) (e : ℕ) (w : Envs R) :
    (newVar b e w).1.env = e ∧ ∀ e' ≠ e, (newVar b e w).2 e' = w e' := by
  obtain ⟨-, h1, h2, h3⟩ := newVar_spec b e w
  refine ⟨h1, fun e' he' => ?_⟩
  by_cases h : (w e).length ∈ (w e).map (·.id)
  · rw [h3 h]
  · rw [h2 h, Envs.set_ne _ _ he']

theorem newVars_at (n e : ℕ) (w : Envs R) :
    (∀ v ∈ (newVars n e w).1, v.env = e) ∧ ∀ e' ≠ e, (newVars n e w).2 e' = w e' := by
  induction n generalizing w with
  | zero => exact ⟨fun v hv => (by cases hv), fun _ _ => rfl⟩
  | succ n ih =>
    obtain ⟨h1, h2⟩ := newVar_at false e w
    obtain ⟨h3, h4⟩ := ih (newVar false e w).2
    refine ⟨fun v hv => ?_, fun e' he' => (h4 e' he').trans (h2 e' he')⟩
    rcases List.mem_cons.mp hv with rfl | hv
    · exact h1
    · exact h3 v hv

theorem newRows_at (r c e : ℕ) (w : Envs R) :
    (∀ v ∈ (newRows r c e w).1.flatten, v.env = e) ∧ ∀ e' ≠ e, (newRows r c e w).2 e' = w e' := by
  induction r generalizing w with
  | zero => exact ⟨fun v hv => by simp [newRows] at hv, fun _ _ => rfl⟩
  | succ r ih =>
    obtain ⟨h1, h2⟩ := newVars_at c e w
    obtain ⟨h3, h4⟩ := ih (newVars c e w).2
    refine ⟨fun v hv => ?_, fun e' he' => (h4 e' he').trans (h2 e' he')⟩
    have hv : v ∈ (newVars c e w).1 ++ (newRows r c e (newVars c e w).2).1.flatten := hv
    rcases List.mem_append.mp hv with hv | hv
    · exact h1 v hv
    · exact h3 v hv

/-- C21: a creation call uses the environment it is given if it is given exactly one, and the default
environment otherwise; its variables belong to that environment and no other environment changes.
Nothing is assumed of the environments. -/
theorem create_environment {w : Envs R} {o : EnvOp R} {envs : List ℕ} (ho : o.given = some envs)
    {r : List (Var R) × Envs R} (hr : o.call w = .ok r) :
    (∀ e, envs = [e] → (∀ v ∈ r.1, v.env = e) ∧ ∀ e' ≠ e, r.2 e' = w e') ∧
    (envs.length ≠ 1 → (∀ v ∈ r.1, v.env = 0) ∧ ∀ e' ≠ 0, r.2 e' = w e') := by
  have key : ∀ e, (envs = [e] ∨ envs.length ≠ 1 ∧ e = 0) →
      (∀ v ∈ r.1, v.env = e) ∧ ∀ e' ≠ e, r.2 e' = w e' := by
    intro e he
    have harg : envArg envs = e := by
      rcases he with rfl | ⟨h, rfl⟩
      · rfl
      · match envs, h with
        | [], _ => rfl
        | [_], h => exact absurd rfl h
        | _ :: _ :: _, _ => rfl
    cases o with
    | track e v => cases ho
    | newContinuous envs' =>
      obtain rfl : envs' = envs := Option.some.inj ho
      simp only [EnvOp.call, Except.ok.injEq, harg] at hr
      subst hr
      obtain ⟨h1, h2⟩ := newVar_at false e w
      exact ⟨fun v hv => by rw [List.mem_singleton.mp hv]; exact h1, h2⟩
    | newBinary envs' =>
      obtain rfl : envs' = envs := Option.some.inj ho
      simp only [EnvOp.call, Except.ok.injEq, harg] at hr
      subst hr
      obtain ⟨h1, h2⟩ := newVar_at true e w
      exact ⟨fun v hv => by rw [List.mem_singleton.mp hv]; exact h1, h2⟩
    | newVector n envs' =>
      obtain rfl : envs' = envs := Option.some.inj ho
      simp only [EnvOp.call, Except.ok.injEq, harg] at hr
      subst hr
      exact newVars_at _ e w
    | newMatrix n m envs' =>
      obtain rfl : envs' = envs := Option.some.inj ho
      simp only [EnvOp.call, harg] at hr
      split at hr
      · cases hr
      split at hr
      · cases hr
      simp only [Except.ok.injEq] at hr
      subst hr
      exact newRows_at _ _ e w
  exact ⟨fun e he => key e (.inl he), fun h => key 0 (.inr ⟨h, rfl⟩)⟩

/-- C22, what is lost: a goroutine that has read the slice `l` replaces the environment's variables by
`l` and its own variable, whatever was added in the meantime. -/
theorem concurrent_lost (e : ℕ) {s : Conc R} {i n : ℕ} {l : List (Var R)} (h : s.pc i = .gotVars n l)
    (hn : ∀ x ∈ l, x.id ≠ n) :
    ∃ v : Var R, v.id = n ∧ v.env = e ∧ (s.step e i).vars = l ++ [v] ∧
      (s.step e i).log = s.log ++ [(i, v)] ∧
      ∀ u ∈ s.vars, u ∉ l → u.id ≠ n → u ∉ (s.step e i).vars := by
  have hany : ¬ l.any (fun x => x.id == n) = true := by
    rw [any_id_iff, List.mem_map]
    rintro ⟨x, hx, rfl⟩
    exact hn x hx rfl
  have hv : (s.step e i).vars = l ++ [newVarValue false n e] := by
    unfold Conc.step
    rw [h]
    simp [hany]
  refine ⟨newVarValue false n e, newVarValue_id _ _ _, newVarValue_env _ _ _, hv, ?_, fun u _ h1 h2 h3 => ?_⟩
  · unfold Conc.step
    rw [h]
  · rw [hv] at h3
    rcases List.mem_append.mp h3 with h3 | h3
    · exact h1 h3
    · rw [List.mem_singleton.mp h3, newVarValue_id] at h2
      exact h2 rfl

end Create

/-- C22 is false: a variable returned to a goroutine need not be tracked.  Goroutine `1` reads the slice
before goroutine `0` creates two variables; when it writes, the second one is gone. -/
theorem concurrent_tracked_false : ∃ (s : Conc ℚ) (sched : List ℕ), s.vars = [] ∧
    (∀ i, s.pc i = .start) ∧ (s.run 0 sched).log.map (fun r => (r.1, r.2.id)) = [(0, 0), (0, 1), (1, 0)] ∧
    (s.run 0 sched).vars.map (·.id) = [0] :=
  ⟨⟨[], fun _ => .start, []⟩, [1, 1, 0, 0, 0, 0, 0, 0, 1], rfl, fun _ => rfl, by decide, by decide⟩

/-! ## The hypotheses can be met -/

example : ((EnvOp.newVector 2 [5] : EnvOp ℚ).call (fun _ => [])).isOk = true := rfl

example : ∀ v ∈ (newVars 2 (envArg [5]) (fun _ => []) : List (Var ℚ) × Envs ℚ).1, v.env = 5 :=
  ((create_environment (w := fun _ => []) (o := .newVector 2 [5]) rfl rfl).1 5 rfl).1

example : ∀ v ∈ (newVars 2 (envArg [5, 6]) (fun _ => []) : List (Var ℚ) × Envs ℚ).1, v.env = 0 :=
  ((create_environment (w := fun _ => []) (o := .newVector 2 [5, 6]) rfl rfl).2 (by decide)).1

/-- A 2 by 2 matrix against a 2 by 1 matrix. -/
example : (MCon.mk wMk (.k [[1], [2]]) .le).check = .error .dimension :=
  mcon_check_dimension (r := 2) (k := 2) (r' := 2) (k' := 1) (kmat_canon) kmat_canon
    ⟨rfl, by decide +kernel⟩ ⟨rfl, by decide +kernel⟩ (by decide) (by decide) (by decide)

end Verif
