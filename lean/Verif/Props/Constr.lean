import Mathlib.Algebra.MvPolynomial.CommRing
import Mathlib.Tactic.Linarith
import Mathlib.Tactic.FieldSimp
import Verif.Lemmas.Constr
import Verif.Props.Subst
import Verif.WitnessArray

/-!
# C33 - C37, C41: scalar constraints
-/

set_option linter.unusedSectionVars false

namespace Verif

open MvPolynomial

/-! ## Structure: any arithmetic -/

section Struct
variable {R : Type} [GoNum R]

theorem Sense.OK.check {s : Sense} (h : s.OK) : s.check = .ok () := by
  rcases h with rfl | rfl | rfl <;> rfl

/-- `Check` accepts exactly the meaningful senses. -/
theorem sense_check (s : Sense) : s.check = .ok () ↔ s.OK := by
  cases s <;> simp [Sense.check, Sense.OK, Go.pure_eq, Go.throw_eq]

/-- C33, any arithmetic: comparing two well-formed scalars stores the two sides and the sense. -/
theorem comparison_scalar {a b : Scalar R} (ha : a.check = .ok ()) (hb : b.check = .ok ())
    (s : Sense) : (Expr.s a).comparison (.s b) s = .ok (.s ⟨a, b, s⟩) := by
  show a.comparison (.s b) s = _
  unfold Scalar.comparison
  rw [ha, Go.ok_bind, show (Expr.s b).check = .ok () from hb, Go.ok_bind]
  cases a <;> rfl

/-- C33, any arithmetic: a malformed operand makes the comparison panic. -/
theorem comparison_scalar_rejects {a : Scalar R} {e : Expr R} (s : Sense)
    (h : a.check ≠ .ok () ∨ e.check ≠ .ok ()) : ∃ err, (Expr.s a).comparison e s = .error err := by
  show ∃ err, a.comparison e s = .error err
  unfold Scalar.comparison
  cases ha : a.check with
  | error err => exact ⟨err, rfl⟩
  | ok u =>
    cases he : e.check with
    | error err => exact ⟨err, rfl⟩
    | ok u' => simp [ha, he] at h

end Struct

variable {R : Type} [Field R] [LinearOrder R]

theorem SCon.Canon.check {c : SCon R} (h : c.Canon) : c.check = .ok () := by
  unfold SCon.check
  rw [(good_of_univ h.lhs).check, (good_of_univ h.rhs).check, h.sense.check]
  rfl

/-! ## C33 -/

/-- C33: `a.LessEq(b)` is satisfied exactly where `a ≤ b`. -/
theorem lessEq_sat {a b : Scalar R} (ha : a.Canon) (hb : b.Canon) :
    ∃ c, (Expr.s a).lessEq (.s b) = .ok c ∧ ∀ ρ, c.Sat ρ ↔ a.value ρ ≤ b.value ρ :=
  ⟨_, comparison_scalar (good_of_univ ha).check (good_of_univ hb).check _,
    fun ρ => Con.sat_s ρ _⟩

/-- C33: `a.GreaterEq(b)` is satisfied exactly where `a ≥ b`. -/
theorem greaterEq_sat {a b : Scalar R} (ha : a.Canon) (hb : b.Canon) :
    ∃ c, (Expr.s a).greaterEq (.s b) = .ok c ∧ ∀ ρ, c.Sat ρ ↔ b.value ρ ≤ a.value ρ :=
  ⟨_, comparison_scalar (good_of_univ ha).check (good_of_univ hb).check _,
    fun ρ => Con.sat_s ρ _⟩

/-- C33: `a.Eq(b)` is satisfied exactly where `a = b`. -/
theorem eqTo_sat {a b : Scalar R} (ha : a.Canon) (hb : b.Canon) :
    ∃ c, (Expr.s a).eqTo (.s b) = .ok c ∧ ∀ ρ, c.Sat ρ ↔ a.value ρ = b.value ρ :=
  ⟨_, comparison_scalar (good_of_univ ha).check (good_of_univ hb).check _,
    fun ρ => Con.sat_s ρ _⟩

/-- C33: `a.LessEq(b)` and `b.GreaterEq(a)` have the same solutions. -/
theorem lessEq_greaterEq_sat {a b : Scalar R} (ha : a.Canon) (hb : b.Canon) :
    ∃ c c', (Expr.s a).lessEq (.s b) = .ok c ∧ (Expr.s b).greaterEq (.s a) = .ok c' ∧
      ∀ ρ, c.Sat ρ ↔ c'.Sat ρ := by
  obtain ⟨c, h1, h2⟩ := lessEq_sat ha hb
  obtain ⟨c', h3, h4⟩ := greaterEq_sat hb ha
  exact ⟨c, c', h1, h3, fun ρ => (h2 ρ).trans (h4 ρ).symm⟩

/-- `x*y + 1 <= 3*x` -/
example : (Expr.s (.poly ⟨[wm2 1 0 1 1 1, wm0 1]⟩)).lessEq (.s (.mono (wm1 3 0 1))) =
    .ok (.s ⟨.poly ⟨[wm2 1 0 1 1 1, wm0 1]⟩, .mono (wm1 3 0 1), .le⟩) := by decide +kernel

/-! ## C34 -/

theorem constant_total {e : Scalar R} (he : e.Canon) : ∃ k, e.constant = .ok k := by
  cases e with
  | k c => exact ⟨_, rfl⟩
  | var v => exact ⟨_, rfl⟩
  | mono m => exact ⟨_, rfl⟩
  | poly p =>
    have hc : p.check = .ok () := (good_of_univ (s := .poly p) he).check
    show ∃ k, p.constant = .ok k
    unfold Poly.constant
    rw [hc, Go.ok_bind]
    cases p.monos.find? (fun m => m.isConstant) <;> exact ⟨_, rfl⟩

variable [IsStrictOrderedRing R]

/-- Adding the same number on both sides of a difference does not change a comparison. -/
theorem Sense.holds_shift (s : Sense) (a b k : R) : s.Holds (a - b + k) k ↔ s.Holds a b := by
  cases s with
  | eq => simp [Sense.Holds, sub_eq_zero]
  | le => simp [Sense.Holds]
  | ge => simp [Sense.Holds]
  | bad _ => simp [Sense.Holds]

/-- C34: `Simplify` keeps the sense and the solution set and makes the right side a constant.
Missing: terms that are rearrangements of each other (`simplify_con_false`); the claim that the left
side has no constant term is false (`simplify_con_constant_false`). -/
theorem simplify_con_partial {D : Set (ℕ →₀ ℕ)} (hD : RearrFree D) {c : SCon R} (hc : c.Canon)
    (ht : c.TermsIn D) :
    ∃ c' k, c.simplify = .ok c' ∧ c'.Canon ∧ c'.TermsIn D ∧ c'.sense = c.sense ∧ c'.rhs = .k k ∧
      (∀ v, c'.Mentions v → c.Mentions v) ∧
      c'.lhs.den - c'.rhs.den = c.lhs.den - c.rhs.den ∧ ∀ ρ, c'.Sat ρ ↔ c.Sat ρ := by
  have main : ∃ c' k, (do
      let d ← c.lhs.minus c.rhs
      let l ← d.plusF64 (← c.rhs.constant)
      return (⟨l, .k (← c.rhs.constant), c.sense⟩ : SCon R)) = .ok c' ∧ c'.Canon ∧ c'.TermsIn D ∧
      c'.sense = c.sense ∧ c'.rhs = .k k ∧ (∀ v, c'.Mentions v → c.Mentions v) ∧
      c'.lhs.den - c'.rhs.den = c.lhs.den - c.rhs.den ∧ ∀ ρ, c'.Sat ρ ↔ c.Sat ρ := by
    obtain ⟨k, hk⟩ := constant_total hc.rhs
    have gl : Good c.Mentions D c.lhs := good_mentions hc.lhs ht.lhs (fun v h => Or.inl h)
    have gr : Good c.Mentions D c.rhs := good_mentions hc.rhs ht.rhs (fun v h => Or.inr h)
    obtain ⟨d, h1, h2, h3⟩ := Scalar.minus_den hD gl gr
    obtain ⟨l, h4, h5, h6⟩ := Scalar.plusF64_den hD h2 k
    rw [good_iff] at h5
    refine ⟨⟨l, .k k, c.sense⟩, k, ?_, ⟨h5.1, trivial, hc.sense⟩, ⟨h5.2.1, trivial⟩, rfl, rfl,
      ?_, ?_, ?_⟩
    · rw [h1, Go.ok_bind, hk, Go.ok_bind, h4]; rfl
    · rintro v (h | h)
      · exact h5.2.2 v h
      · exact h.elim
    · show l.den - C k = _
      rw [h6, h3]; ring
    · intro ρ
      unfold SCon.Sat Scalar.value
      simp only [h6, h3, map_add, map_sub, Scalar.den_k, eval_C]
      exact Sense.holds_shift _ _ _ _
  unfold SCon.simplify
  cases hr : c.rhs with
  | k r => exact ⟨c, r, rfl, hc, ht, rfl, hr, fun _ h => h, by rw [hr], fun _ => Iff.rfl⟩
  | var v | mono m | poly p => rw [hr] at main; exact main

/-- The constant, if `Simplify` does not change the difference of the sides. -/
theorem simplify_con_constant_of {c c' : SCon R} {k : R} (hc : c.Canon) (hd : c.rhs.LowDistinct) (h1 : c.simplify = .ok c')
    (h5 : c'.rhs = .k k) (h6 : c'.lhs.den - c'.rhs.den = c.lhs.den - c.rhs.den) :
    c'.rhs = .k (coeff 0 c.rhs.den) ∧ coeff 0 c'.lhs.den = coeff 0 c.lhs.den := by
  have hk : k = coeff 0 c.rhs.den := by
    unfold SCon.simplify at h1
    rw [constant_partial hc.rhs hd] at h1
    cases hr : c.rhs with
    | k r =>
      rw [hr] at h1
      have : c = c' := by simpa [Go.pure_eq] using h1
      subst this
      rw [hr, Scalar.k.injEq] at h5
      simp [h5]
    | var v | mono m | poly p =>
      rw [hr] at h1
      simp only [Go.ok_bind, Go.bind_eq_ok, Go.pure_eq, Except.ok.injEq] at h1
      obtain ⟨d, -, l, -, rfl⟩ := h1
      simp only [Scalar.k.injEq] at h5
      exact h5.symm
  refine ⟨by rw [h5, hk], ?_⟩
  have := congrArg (coeff 0) h6
  rw [h5, coeff_sub, coeff_sub, Scalar.den_k, coeff_C, if_pos rfl, hk] at this
  exact sub_left_injective this

/-- C34, the constant: the right side becomes the constant term of the old right side, and the left
side keeps the constant term of the old left side. -/
theorem simplify_con_constant_partial {D : Set (ℕ →₀ ℕ)} (hD : RearrFree D) {c : SCon R}
    (hc : c.Canon) (ht : c.TermsIn D) (hd : c.rhs.LowDistinct) :
    ∃ c', c.simplify = .ok c' ∧ c'.rhs = .k (coeff 0 c.rhs.den) ∧
      coeff 0 c'.lhs.den = coeff 0 c.lhs.den := by
  obtain ⟨c', k, h1, -, -, -, h5, -, h6, -⟩ := simplify_con_partial hD hc ht
  exact ⟨c', h1, simplify_con_constant_of hc hd h1 h5 h6⟩

/-! ## C35 -/

/-- Multiplication by a non-zero factor, with the sense flipped for a negative one. -/
theorem flipSense_holds (s : Sense) {f : R} (hf : f ≠ 0) (a b : R) :
    (flipSense s f).Holds (a * f) (b * f) ↔ s.Holds a b := by
  unfold flipSense
  by_cases h : f < 0
  · rw [if_pos (show GoNum.lt f (GoNum.zero : R) = true from decide_eq_true h)]
    cases s with
    | eq => exact mul_left_inj' hf
    | le => exact mul_le_mul_right_of_neg h
    | ge => exact mul_le_mul_right_of_neg h
    | bad _ => exact Iff.rfl
  · have h' : 0 < f := lt_of_le_of_ne (not_lt.mp h) hf.symm
    rw [if_neg (show ¬ GoNum.lt f (GoNum.zero : R) = true from by simpa [exactNum] using h)]
    cases s with
    | eq => exact mul_left_inj' hf
    | le => exact mul_le_mul_iff_left₀ h'
    | ge => exact mul_le_mul_iff_left₀ h'
    | bad _ => exact Iff.rfl

theorem flipSense_ok {s : Sense} (h : s.OK) (f : R) : (flipSense s f).OK := by
  unfold flipSense
  rcases h with rfl | rfl | rfl <;> split <;> simp [Sense.OK]

/-- C35: scaling by a non-zero factor keeps the solution set.  Missing: terms that are
rearrangements of each other (`scaleBy_false`). -/
theorem scaleBy_partial {D : Set (ℕ →₀ ℕ)} (hD : RearrFree D) {c : SCon R} (hc : c.Canon)
    (ht : c.TermsIn D) (f : R) :
    ∃ c', c.scaleBy f = .ok c' ∧ c'.Canon ∧ c'.lhs.den = c.lhs.den * C f ∧
      c'.rhs.den = c.rhs.den * C f ∧ (0 ≤ f → c'.sense = c.sense) ∧
      (f < 0 → c.sense = .le → c'.sense = .ge) ∧ (f < 0 → c.sense = .ge → c'.sense = .le) ∧
      (c.sense = .eq → c'.sense = .eq) ∧ (f ≠ 0 → ∀ ρ, c'.Sat ρ ↔ c.Sat ρ) := by
  obtain ⟨l, h1, h2, h3⟩ := Scalar.mulF64_den hD (good_of hc.lhs ht.lhs) f
  obtain ⟨r, h4, h5, h6⟩ := Scalar.mulF64_den hD (good_of hc.rhs ht.rhs) f
  rw [good_iff] at h2 h5
  refine ⟨⟨l, r, flipSense c.sense f⟩, ?_, ⟨h2.1, h5.1, flipSense_ok hc.sense f⟩, h3, h6, ?_, ?_,
    ?_, ?_, ?_⟩
  · unfold SCon.scaleBy
    rw [hc.check, Go.ok_bind, h1, Go.ok_bind, h4]; rfl
  · intro hf
    show flipSense _ _ = _
    unfold flipSense
    rw [if_neg (show ¬ GoNum.lt f (GoNum.zero : R) = true from by simpa [exactNum] using hf)]
  · intro hf hs
    show flipSense _ _ = _
    unfold flipSense
    rw [if_pos (show GoNum.lt f (GoNum.zero : R) = true from decide_eq_true hf), hs]
  · intro hf hs
    show flipSense _ _ = _
    unfold flipSense
    rw [if_pos (show GoNum.lt f (GoNum.zero : R) = true from decide_eq_true hf), hs]
  · intro hs
    show flipSense _ _ = _
    unfold flipSense
    rw [hs]; simp
  · intro hf ρ
    unfold SCon.Sat Scalar.value
    simp only [h3, h6, map_mul, eval_C]
    exact flipSense_holds _ hf _ _

/-! ## C36, C37 -/

/-- `IsLinear` of a scalar constraint: all written terms have degree at most one. -/
theorem isLinear_con {c : SCon R} (hc : c.Canon) :
    ∃ b, (Con.s c).isLinear = .ok b ∧ (b = true ↔ c.TermsIn (degLE 1)) := by
  obtain ⟨dl, h1, h2⟩ := Scalar.degree_le_iff hc.lhs (n := 1)
  obtain ⟨dr, h3, h4⟩ := Scalar.degree_le_iff hc.rhs (n := 1)
  have hl : Expr.isLinear (.s c.lhs) = .ok (decide (dl ≤ 1)) := by
    show (do return decide ((← c.lhs.degree) ≤ 1)) = _
    rw [h1]; rfl
  have hr : Expr.isLinear (.s c.rhs) = .ok (decide (dr ≤ 1)) := by
    show (do return decide ((← c.rhs.degree) ≤ 1)) = _
    rw [h3]; rfl
  refine ⟨decide (dr ≤ 1) && decide (dl ≤ 1), ?_, ?_⟩
  · unfold Con.isLinear
    show (Expr.isLinear (.s c.rhs) >>= fun b => if b = true then Expr.isLinear (.s c.lhs) else pure false) = _
    rw [hr, hl, Go.ok_bind]
    cases decide (dr ≤ 1) <;> rfl
  · rw [Bool.and_eq_true, decide_eq_true_eq, decide_eq_true_eq]
    have h2' : dl ≤ 1 ↔ c.lhs.TermsIn (degLE 1) := h2
    have h4' : dr ≤ 1 ↔ c.rhs.TermsIn (degLE 1) := h4
    rw [h2', h4']
    exact ⟨fun h => ⟨h.2, h.1⟩, fun h => ⟨h.2, h.1⟩⟩

theorem requireLinear_ok {c : SCon R} (hc : c.Canon) (hl : c.TermsIn (degLE 1)) :
    (Con.s c).requireLinear = .ok () := by
  obtain ⟨b, h1, h2⟩ := isLinear_con hc
  unfold Con.requireLinear
  rw [h1, h2.mpr hl]; rfl

theorem requireLinear_error {c : SCon R} (hc : c.Canon) (hl : ¬ c.TermsIn (degLE 1)) :
    (Con.s c).requireLinear = .error .notLinear := by
  obtain ⟨b, h1, h2⟩ := isLinear_con hc
  have : b = false := by
    rw [← h2] at hl
    simpa using hl
  unfold Con.requireLinear
  rw [h1, this]; rfl

theorem rearrFree_degLE_one : RearrFree (degLE 1) := by
  intro d hd d' hd' h
  exact rearrFree_degLE_two d (le_trans (mem_degLE.mp hd) one_le_two) d'
    (le_trans (mem_degLE.mp hd') one_le_two) h

/-- The variables of the list cover the variables written in the constraint. -/
def SCon.CoveredBy (c : SCon R) (ws : List (Var R)) : Prop :=
  ∀ v, c.Mentions v → v.id ∈ ws.map (·.id)

theorem SCon.CoveredBy.diff {c : SCon R} {ws : List (Var R)} (h : c.CoveredBy ws) (hc : c.Canon)
    (d : Scalar R) (hd : c.lhs.minus c.rhs = .ok d) (v : Var R) (hv : d.Mentions v) :
    v.id ∈ ws.map (·.id) := by
  have gl : Good c.Mentions Set.univ c.lhs :=
    good_mentions hc.lhs (Scalar.termsIn_univ _) (fun v h => Or.inl h)
  have gr : Good c.Mentions Set.univ c.rhs :=
    good_mentions hc.rhs (Scalar.termsIn_univ _) (fun v h => Or.inr h)
  obtain ⟨d', h1, h2⟩ := Scalar.minus_good gl gr
  rw [hd, Except.ok.injEq] at h1
  subst h1
  rw [good_iff] at h2
  exact h v (h2.2.2 v hv)

/-- The coefficient of each listed variable in the difference of the sides. -/
theorem linear_core {c : SCon R} (hc : c.Canon) (hl : c.TermsIn (degLE 1))
    {ws : List (Var R)} (hne : ws ≠ []) (hok : ∀ w ∈ ws, w.OK) (hnd : (ws.map (·.id)).Nodup)
    (hcov : ∀ d, c.lhs.minus c.rhs = .ok d → ∀ v, d.Mentions v → v.id ∈ ws.map (·.id)) :
    ∃ d A, c.lhs.minus c.rhs = .ok d ∧ d.linearCoeff [ws] = .ok A ∧ A.length = ws.length ∧
      ∀ ρ, c.lhs.value ρ - c.rhs.value ρ = coeff 0 c.lhs.den - coeff 0 c.rhs.den +
        ((A.zip ws).map (fun aw => aw.1 * ρ aw.2.id)).sum := by
  have gl : Good c.Mentions (degLE 1) c.lhs := good_mentions hc.lhs hl.lhs (fun v h => Or.inl h)
  have gr : Good c.Mentions (degLE 1) c.rhs := good_mentions hc.rhs hl.rhs (fun v h => Or.inr h)
  obtain ⟨d, h1, h2, h3⟩ := Scalar.minus_den rearrFree_degLE_one gl gr
  rw [good_iff] at h2
  have hcov' : ∀ v, d.Mentions v → v.id ∈ ws.map (·.id) := hcov d h1
  obtain ⟨s1, s2⟩ := Scalar.minus_simple hc.lhs hc.rhs h1
  refine ⟨d, _, h1, linearCoeff_partial h2.1 s1 s2 hne hok hnd hcov', by simp, fun ρ => ?_⟩
  have hv := Scalar.value_affine h2.1 h2.2.1 hnd hcov' ρ
  have hval : d.value ρ = c.lhs.value ρ - c.rhs.value ρ := by
    unfold Scalar.value; rw [h3, map_sub]
  rw [← hval, hv, h3, coeff_sub]
  congr 1
  rw [List.map_map]
  have hz : ∀ (l : List (Var R)) (f : Var R → R), ((l.map f).zip l).map (fun aw => aw.1 * ρ aw.2.id) =
      l.map (fun w => f w * ρ w.id) := by
    intro l f
    induction l with
    | nil => rfl
    | cons a l ih => simp [ih]
  rw [hz]
  rfl

private theorem sum_neg (A : List R) (ws : List (Var R)) (ρ : ℕ → R) :
    (((A.map (fun x => (-1 : R) * x)).zip ws).map (fun aw => aw.1 * ρ aw.2.id)).sum =
      - ((A.zip ws).map (fun aw => aw.1 * ρ aw.2.id)).sum := by
  induction A generalizing ws with
  | nil => simp
  | cons a A ih =>
    cases ws with
    | nil => simp
    | cons w ws => simp only [List.map_cons, List.zip_cons_cons, List.sum_cons, ih]; ring

theorem negOne_eq : (negOne : R) = -1 := by
  simp [negOne]

/-- As `linearIneq_partial`, with a list that covers the variables of the difference. -/
theorem linearIneq_general {c : SCon R} (hc : c.Canon) (hs : c.sense = .le ∨ c.sense = .ge)
    (hd : c.LowDistinct) (hl : c.TermsIn (degLE 1)) {ws : List (Var R)} (hne : ws ≠ [])
    (hok : ∀ w ∈ ws, w.OK) (hnd : (ws.map (·.id)).Nodup)
    (hcov : ∀ d, c.lhs.minus c.rhs = .ok d → ∀ v, d.Mentions v → v.id ∈ ws.map (·.id)) :
    ∃ A b, c.linearIneq [ws] = .ok (A, b) ∧ A.length = ws.length ∧
      ∀ ρ, c.Sat ρ ↔ ((A.zip ws).map (fun aw => aw.1 * ρ aw.2.id)).sum ≤ b := by
  obtain ⟨d, A, h1, h2, h3, h4⟩ := linear_core hc hl hne hok hnd hcov
  have hr := constant_partial hc.rhs hd.rhs
  have hll := constant_partial hc.lhs hd.lhs
  unfold SCon.linearIneq
  rw [hc.check, Go.ok_bind, requireLinear_ok hc hl, Go.ok_bind, h1, Go.ok_bind, h2, Go.ok_bind, hr,
    Go.ok_bind, hll, Go.ok_bind]
  refine ⟨_, _, rfl, ?_, ?_⟩
  · split <;> simpa using h3
  · intro ρ
    have h := h4 ρ
    rcases hs with hs | hs
    · rw [if_neg (by rw [hs]; decide), if_neg (by rw [hs]; decide)]
      unfold SCon.Sat
      rw [hs]
      show _ ≤ _ ↔ _ ≤ coeff 0 c.rhs.den - coeff 0 c.lhs.den
      constructor <;> intro h' <;> linarith
    · rw [if_pos hs, if_pos hs, negOne_eq]
      have e := sum_neg A ws ρ
      unfold SCon.Sat
      rw [hs]
      show _ ≤ _ ↔ (((A.map (fun x => (-1 : R) * x)).zip ws).map _).sum ≤
        -(coeff 0 c.rhs.den - coeff 0 c.lhs.den)
      rw [e]
      constructor <;> intro h' <;> linarith

/-- C36: for a linear `<=` or `>=` constraint the returned `(A, b)` describes the same half space.
Missing: sides in which a constant or a variable is written twice (`linearIneq_false`).  The sense
`=` is not rejected (`linearIneq_equality`). -/
theorem linearIneq_partial {c : SCon R} (hc : c.Canon) (hs : c.sense = .le ∨ c.sense = .ge)
    (hd : c.LowDistinct) (hl : c.TermsIn (degLE 1)) {ws : List (Var R)} (hne : ws ≠ [])
    (hok : ∀ w ∈ ws, w.OK) (hnd : (ws.map (·.id)).Nodup)
    (hcov : c.CoveredBy ws) :
    ∃ A b, c.linearIneq [ws] = .ok (A, b) ∧ A.length = ws.length ∧
      ∀ ρ, c.Sat ρ ↔ ((A.zip ws).map (fun aw => aw.1 * ρ aw.2.id)).sum ≤ b := by
  exact linearIneq_general hc hs hd hl hne hok hnd (hcov.diff hc)

/-- C37: for a linear equality constraint the returned `(C, d)` describes the same hyperplane.
Missing: sides in which a constant or a variable is written twice (`linearEq_false`). -/
theorem linearEq_partial {c : SCon R} (hc : c.Canon) (hs : c.sense = .eq)
    (hd : c.LowDistinct) (hl : c.TermsIn (degLE 1)) {ws : List (Var R)} (hne : ws ≠ [])
    (hok : ∀ w ∈ ws, w.OK) (hnd : (ws.map (·.id)).Nodup)
    (hcov : c.CoveredBy ws) :
    ∃ A b, c.linearEq [ws] = .ok (A, b) ∧ A.length = ws.length ∧
      ∀ ρ, c.Sat ρ ↔ ((A.zip ws).map (fun aw => aw.1 * ρ aw.2.id)).sum = b := by
  obtain ⟨d, A, h1, h2, h3, h4⟩ := linear_core hc hl hne hok hnd (hcov.diff hc)
  have hr := constant_partial hc.rhs hd.rhs
  have hll := constant_partial hc.lhs hd.lhs
  unfold SCon.linearEq
  rw [hc.check, Go.ok_bind, requireLinear_ok hc hl, Go.ok_bind, if_neg (by simp [hs])]
  refine ⟨A, coeff 0 c.rhs.den - coeff 0 c.lhs.den, ?_, h3, ?_⟩
  · simp only [Go.pure_eq]
    rw [h1, Go.ok_bind, h2, Go.ok_bind, hr, Go.ok_bind, hll]
    rfl
  · intro ρ
    have h := h4 ρ
    unfold SCon.Sat
    rw [hs]
    show _ = _ ↔ _
    constructor <;> intro h' <;> linarith

/-- Without a list `LinearCoeff` uses the variables of the expression. -/
theorem linearCoeff_default (e : Scalar R) : e.linearCoeff [] = e.linearCoeff [e.variables] := by
  cases e <;> rfl

/-- C36 without a list: the columns are the variables of the difference of the sides. -/
theorem linearIneq_default_partial {c : SCon R} (hc : c.Canon) (hs : c.sense = .le ∨ c.sense = .ge)
    (hd : c.LowDistinct) (hl : c.TermsIn (degLE 1)) :
    ∃ d, c.lhs.minus c.rhs = .ok d ∧ (d.variables ≠ [] → ∃ A b, c.linearIneq [] = .ok (A, b) ∧
      A.length = d.variables.length ∧
      ∀ ρ, c.Sat ρ ↔ ((A.zip d.variables).map (fun aw => aw.1 * ρ aw.2.id)).sum ≤ b) := by
  have gl : Good (fun v => v.OK) Set.univ c.lhs := good_mentions hc.lhs (Scalar.termsIn_univ _)
    (fun v h => mentions_ok hc.lhs h)
  have gr : Good (fun v => v.OK) Set.univ c.rhs := good_mentions hc.rhs (Scalar.termsIn_univ _)
    (fun v h => mentions_ok hc.rhs h)
  obtain ⟨d, h1, h2⟩ := Scalar.minus_good gl gr
  rw [good_iff] at h2
  refine ⟨d, h1, fun hne => ?_⟩
  obtain ⟨v1, v2, v3⟩ := variables_nodup h2.1
  have hcov : ∀ d', c.lhs.minus c.rhs = .ok d' → ∀ v, d'.Mentions v → v.id ∈ d.variables.map (·.id) := by
    intro d' hd' v hv
    rw [h1, Except.ok.injEq] at hd'
    exact v3 v (hd' ▸ hv)
  obtain ⟨A, b, e1, e2, e3⟩ := linearIneq_general hc hs hd hl hne (fun w hw => h2.2.2 w (v2 w hw)) v1 hcov
  refine ⟨A, b, ?_, e2, e3⟩
  rw [← e1]
  unfold SCon.linearIneq
  rw [h1]
  simp only [Go.ok_bind, linearCoeff_default]

/-- C36, C37: a constraint that is not linear is rejected. -/
theorem linear_rejects_nonlinear {c : SCon R} (hc : c.Canon) (hl : ¬ c.TermsIn (degLE 1))
    (wrt : List (List (Var R))) :
    c.linearIneq wrt = .error .notLinear ∧ c.linearEq wrt = .error .notLinear := by
  unfold SCon.linearIneq SCon.linearEq
  rw [hc.check, requireLinear_error hc hl]
  exact ⟨rfl, rfl⟩

/-- C37: a linear constraint with another sense is rejected. -/
theorem linearEq_rejects_sense {c : SCon R} (hc : c.Canon) (hl : c.TermsIn (degLE 1))
    (hs : c.sense ≠ .eq) (wrt : List (List (Var R))) :
    c.linearEq wrt = .error .equalityRequired := by
  unfold SCon.linearEq
  rw [hc.check, requireLinear_ok hc hl, Go.ok_bind, Go.ok_bind, if_pos hs]
  rfl

/-! ## C41 -/

/-- C41: an assignment satisfies `c.Substitute(v, s)` iff the assignment updated at `v` with the value
of `s` satisfies `c`.  Missing: terms that are rearrangements of each other (`substitute_con_false`),
and variables with the ID of `v` from another environment. -/
theorem substitute_con_partial {D T : Set (ℕ →₀ ℕ)} {c : SCon R} {s : Scalar R} {v : Var R}
    (hD : RearrFree D) (hc : c.Canon) (hv : v.OK) (hs : s.Canon) (hel : SameEnv v c.lhs)
    (her : SameEnv v c.rhs) (ts : s.TermsIn T)
    (hl : ∀ d, c.lhs.HasTerm d → SubstTerms (substTermsFor v T) d ⊆ D)
    (hr : ∀ d, c.rhs.HasTerm d → SubstTerms (substTermsFor v T) d ⊆ D) :
    ∃ c', c.substitute v s = .ok c' ∧ c'.sense = c.sense ∧
      ∀ ρ, c'.Sat ρ ↔ c.Sat (Function.update ρ v.id (s.value ρ)) := by
  obtain ⟨l, h1, h2⟩ := substitute_value_partial hD hc.lhs hv hs hel ts hl
  obtain ⟨r, h3, h4⟩ := substitute_value_partial hD hc.rhs hv hs her ts hr
  refine ⟨⟨l, r, c.sense⟩, ?_, rfl, fun ρ => ?_⟩
  · unfold SCon.substitute
    rw [hc.check, Go.ok_bind, h1, Go.ok_bind, h3]; rfl
  · unfold SCon.Sat
    rw [h2, h4]

/-- C41 for quadratic constraints and linear replacements: no condition on the terms. -/
theorem substitute_con_quadratic {c : SCon R} {s : Scalar R} {v : Var R} (hc : c.Canon) (hv : v.OK)
    (hs : s.Canon) (hel : SameEnv v c.lhs) (her : SameEnv v c.rhs) (ht : c.TermsIn (degLE 2))
    (ts : s.TermsIn (degLE 1)) :
    ∃ c', c.substitute v s = .ok c' ∧ c'.Canon ∧ c'.TermsIn (degLE 2) ∧ c'.sense = c.sense ∧
      ∀ ρ, c'.Sat ρ ↔ c.Sat (Function.update ρ v.id (s.value ρ)) := by
  obtain ⟨l, h1, h2, h3, h4⟩ := substitute_affine_into_quadratic hc.lhs hv hs hel ht.lhs ts
  obtain ⟨r, h5, h6, h7, h8⟩ := substitute_affine_into_quadratic hc.rhs hv hs her ht.rhs ts
  refine ⟨⟨l, r, c.sense⟩, ?_, ⟨h2, h6, hc.sense⟩, ⟨h3, h7⟩, rfl, fun ρ => ?_⟩
  · unfold SCon.substitute
    rw [hc.check, Go.ok_bind, h1, Go.ok_bind, h5]; rfl
  · have key : ∀ f : MvPolynomial ℕ R, eval ρ (bind₁ (substFor v s) f) =
        eval (Function.update ρ v.id (s.value ρ)) f := by
      intro f
      rw [eval_bind₁]
      congr 1
      congr 1
      funext i
      unfold substFor Scalar.value
      by_cases h : i = v.id
      · subst h; simp
      · simp [h]
    unfold SCon.Sat
    show c.sense.Holds (eval ρ l.den) (eval ρ r.den) ↔ _
    rw [h4, h8, key, key]
    rfl

/-- C41 for `SubstituteAccordingTo`, quadratic constraints and maps to linear expressions. -/
theorem substMap_con_quadratic {c : SCon R} {sm : SubMap R} {φ : ℕ → MvPolynomial ℕ R}
    (hc : c.Canon) (hsm : ∀ kv ∈ sm, kv.1.OK ∧ kv.2.Canon) (hk : (sm.map (·.1)).Nodup)
    (hl : Describes sm c.lhs φ) (hr : Describes sm c.rhs φ) (ht : c.TermsIn (degLE 2))
    (ts : ∀ kv ∈ sm, kv.2.TermsIn (degLE 1)) :
    ∃ c', c.substMap sm = .ok c' ∧ c'.sense = c.sense ∧
      ∀ ρ, c'.Sat ρ ↔ c.Sat (fun i => eval ρ (φ i)) := by
  obtain ⟨l, h1, h2⟩ := substMap_value_affine hc.lhs hsm hk hl ht.lhs ts
  obtain ⟨r, h3, h4⟩ := substMap_value_affine hc.rhs hsm hk hr ht.rhs ts
  refine ⟨⟨l, r, c.sense⟩, ?_, rfl, fun ρ => ?_⟩
  · unfold SCon.substMap
    rw [hc.check, Go.ok_bind, h1, Go.ok_bind, h3]; rfl
  · unfold SCon.Sat
    rw [h2, h4]

/-- C41: giving values to all variables decides the constraint: the result compares the two
values. -/
theorem substMap_con_evaluates {c : SCon R} {sm : SubMap R} {ρ : ℕ → R} (hc : c.Canon)
    (hsm : ∀ kv ∈ sm, kv.1.OK ∧ kv.2.Canon) (hk : (sm.map (·.1)).Nodup)
    (hall : ∀ w, c.Mentions w → (w, Scalar.k (ρ w.id)) ∈ sm) :
    ∃ c', c.substMap sm = .ok c' ∧ c'.lhs = .k (c.lhs.value ρ) ∧ c'.rhs = .k (c.rhs.value ρ) ∧
      ∀ σ, c'.Sat σ ↔ c.Sat ρ := by
  have h1 := substMap_evaluates hc.lhs hsm hk (fun w h => hall w (Or.inl h))
  have h2 := substMap_evaluates hc.rhs hsm hk (fun w h => hall w (Or.inr h))
  refine ⟨⟨.k (c.lhs.value ρ), .k (c.rhs.value ρ), c.sense⟩, ?_, rfl, rfl, fun σ => ?_⟩
  · unfold SCon.substMap
    rw [hc.check, Go.ok_bind, h1, Go.ok_bind, h2]; rfl
  · unfold SCon.Sat Scalar.value
    simp

end Verif
