import Verif.Lemmas.HomProg
import Verif.Model.SignedZero
import Verif.Props.FormatExpr

/-!
# C85: the sign of zeros

IEEE 754 has two zeros.  A caller who passes `-0` where another passes `0`, or whose `-0` arises in an
earlier call, gets the same results up to the sign of zeros, and a panic exactly when the other gets it.  The
exceptions are `ImpliesThisIsAlsoSatisfied`, if it divides by a zero coefficient, and the text of a zero.

The results for `float64` without signs of zeros (`F64`) are therefore results for `float64`.
-/

set_option linter.unusedSectionVars false

namespace Verif

open GoNum

/-! ## The arithmetic -/

namespace F64Z

theorem signed_val (x : F64) (s : Bool) : (signed x s).val = x := by
  unfold signed
  split
  · rename_i h; rw [h.1]; rfl
  · rfl

/-- The value of a result is the result of the arithmetic that has one zero only; comparisons do not see
the sign of a zero. -/
theorem value_laws (a b : F64Z) (k : ℤ) :
    (GoNum.add a b).val = GoNum.add a.val b.val ∧ (GoNum.mul a b).val = GoNum.mul a.val b.val ∧
    (GoNum.sub a b).val = GoNum.sub a.val b.val ∧ (GoNum.neg a).val = GoNum.neg a.val ∧
    (GoNum.ofInt k : F64Z).val = GoNum.ofInt k ∧
    GoNum.feq a b = GoNum.feq a.val b.val ∧ GoNum.lt a b = GoNum.lt a.val b.val ∧ GoNum.le a b = GoNum.le a.val b.val := by
  refine ⟨signed_val _ _, signed_val _ _, ?_, signed_val _ _, rfl, rfl, rfl, rfl⟩
  change (F64Z.add a (F64Z.neg b)).val = F64.add a.val (F64.neg b.val)
  rw [F64Z.add, signed_val, F64Z.neg, signed_val]

/-- The same for a quotient, unless the divisor is `-0`. -/
theorem value_div (a : F64Z) {b : F64Z} (hb : b ≠ negZero) : (GoNum.div a b).val = GoNum.div a.val b.val := by
  change (F64Z.div a b).val = F64.div a.val b.val
  unfold F64Z.div
  split
  · rename_i h
    cases b with
    | negZero => exact absurd rfl hb
    | num y =>
      have h' : y = .fin 0 := h
      subst h'
      change F64Z.val (match a.val with
        | .nan => num .nan
        | .inf _ => num (.inf (a.sign != false))
        | .fin p => if p = 0 then num .nan else num (.inf (a.sign != false))) = F64.div a.val (.fin 0)
      cases a with
      | negZero => rfl
      | num x =>
        cases x with
        | nan => rfl
        | inf s => rfl
        | fin p =>
          change F64Z.val (if p = 0 then num .nan else num (.inf (decide (p < 0) != false))) =
            if (0 : ℚ) = 0 then (if p = 0 then F64.nan else .inf (decide (p < 0))) else F64.ofRat (p / 0)
          rw [if_pos rfl]
          split
          · rfl
          · change F64.inf (decide (p < 0) != false) = _
            rw [Bool.bne_false]
  · exact signed_val _ _

/-- The sign of every zero is forgotten: among the coefficients and the constants, and among the bounds of variables. -/
def erase : Recode F64Z F64 := .ofNum F64Z.val

/-- Forgetting the sign of zeros respects the operations. -/
def unsigned : NumHom F64Z F64 where
  f := erase
  zero := rfl
  one := rfl
  add a b := (value_laws a b 0).1
  mul a b := (value_laws a b 0).2.1
  sub a b := (value_laws a b 0).2.2.1
  neg a := (value_laws a a 0).2.2.2.1
  ofInt _ := rfl
  feq _ _ := rfl
  lt _ _ := rfl
  le _ _ := rfl
  sameId _ _ := Iff.rfl
  sameVar _ _ := Iff.rfl
  varCheck _ := rfl

theorem unsigned_keys : unsigned.Keys := fun _ _ => rfl

theorem unsigned_names : unsigned.Names := fun _ => rfl

theorem unsigned_div : unsigned.Div (fun x => GoNum.feq x GoNum.zero = false) := by
  intro b hb
  refine value_div _ ?_
  rintro rfl
  exact absurd hb (by decide)

/-! ### The signs -/

theorem round53_nonneg {q : ℚ} (h : 0 ≤ q) : 0 ≤ round53 q := by
  have h1 : (0 : ℚ) < 2 ^ lastBit q := zpow_pos (by norm_num) _
  have h2 : 0 ≤ ⌊q / 2 ^ lastBit q⌋ := Int.floor_nonneg.mpr (div_nonneg h h1.le)
  have h3 : (0 : ℤ) ≤ roundEven (q / 2 ^ lastBit q) := h2.trans (roundEven_bounds _).1
  exact mul_nonneg (Int.cast_nonneg h3) h1.le

theorem round53_neg (q : ℚ) : round53 (-q) = -round53 q := by
  have : lastBit (-q) = lastBit q := by simp [lastBit]
  rw [round53, round53, this, neg_div, roundEven_neg]
  push_cast
  ring

theorem round53_nonpos {q : ℚ} (h : q ≤ 0) : round53 q ≤ 0 := by
  have := round53_nonneg (neg_nonneg.mpr h)
  rw [round53_neg] at this
  linarith

/-- The sign of a rounded number that is not zero. -/
theorem sign_ofRat {q : ℚ} {s : Bool} (hp : 0 < q → s = false) (hn : q < 0 → s = true) (h0 : q = 0 → s = false ∨ s = true) :
    (signed (F64.ofRat q) s).sign = s := by
  unfold signed
  split
  · rename_i h; exact h.2.symm
  · rename_i h
    unfold F64.ofRat at h ⊢
    split
    · rename_i hs
      rw [if_pos hs] at h
      change decide (round53 q < 0) = s
      rcases lt_trichotomy q 0 with hq | hq | hq
      · rw [hn hq, decide_eq_true_iff]
        refine lt_of_le_of_ne (round53_nonpos hq.le) fun he => h ⟨by rw [he], hn hq⟩
      · subst hq
        have : round53 0 = 0 := le_antisymm (round53_nonpos le_rfl) (round53_nonneg le_rfl)
        rw [this] at h ⊢
        cases s
        · rfl
        · exact absurd ⟨rfl, rfl⟩ h
      · rw [hp hq, decide_eq_false_iff_not, not_lt]
        exact round53_nonneg hq.le
    · rename_i hs
      change decide (q < 0) = s
      rcases lt_trichotomy q 0 with hq | hq | hq
      · rw [hn hq]; exact decide_eq_true hq
      · subst hq
        exfalso
        have : round53 0 = 0 := le_antisymm (round53_nonpos le_rfl) (round53_nonneg le_rfl)
        rw [this, abs_zero] at hs
        exact hs (pow_pos (by norm_num) _)
      · rw [hp hq]; exact decide_eq_false (not_lt.mpr hq.le)

theorem sign_mul_pos {p q : ℚ} : (0 < p * q → (decide (p < 0) != decide (q < 0)) = false) ∧
    (p * q < 0 → (decide (p < 0) != decide (q < 0)) = true) := by
  constructor
  · intro h
    rcases pos_and_pos_or_neg_and_neg_of_mul_pos h with ⟨h1, h2⟩ | ⟨h1, h2⟩
    · simp [not_lt.mpr h1.le, not_lt.mpr h2.le]
    · simp [h1, h2]
  · intro h
    rcases mul_neg_iff.mp h with ⟨h1, h2⟩ | ⟨h1, h2⟩
    · simp [not_lt.mpr h1.le, h2]
    · simp [not_lt.mpr h2.le, h1]

/-- The sign of a product is that of the factors, also if the product is zero, underflows or overflows. -/
theorem sign_mul (a b : F64Z) (h : (GoNum.mul a b).val ≠ .nan) : (GoNum.mul a b).sign = (a.sign != b.sign) := by
  change (F64Z.mul a b).sign = _
  change (F64Z.mul a b).val ≠ _ at h
  unfold F64Z.mul at h ⊢
  rw [signed_val] at h
  have hz : F64.ofRat 0 = .fin 0 := by decide +kernel
  rcases a with (_ | s | p) | _ <;> rcases b with (_ | s' | q) | _ <;> try exact absurd rfl h
  · rfl
  · change F64.mul (.inf s) (.fin q) ≠ _ at h
    change (signed (F64.mul (.inf s) (.fin q)) _).sign = _
    unfold F64.mul at h ⊢
    by_cases hq : q = 0
    · simp [hq] at h
    · simp only [hq, if_false]; rfl
  · change F64.mul (.fin p) (.inf s') ≠ _ at h
    change (signed (F64.mul (.fin p) (.inf s')) _).sign = _
    unfold F64.mul at h ⊢
    by_cases hp : p = 0
    · simp [hp] at h
    · simp only [hp, if_false]
      change (s' != decide (p < 0)) = (decide (p < 0) != s')
      cases s' <;> cases decide (p < 0) <;> rfl
  · exact sign_ofRat sign_mul_pos.1 sign_mul_pos.2 fun _ => by
      rcases Bool.eq_false_or_eq_true ((num (F64.fin p)).sign != (num (F64.fin q)).sign) with h | h <;> simp [h]
  · change (signed (F64.ofRat (p * 0)) (decide (p < 0) != true)).sign = (decide (p < 0) != true)
    rw [mul_zero]
    exact sign_ofRat (by simp) (by simp) fun _ => by cases (decide (p < 0) != true) <;> simp
  · change (signed (F64.ofRat (0 * q)) (true != decide (q < 0))).sign = (true != decide (q < 0))
    rw [zero_mul]
    exact sign_ofRat (by simp) (by simp) fun _ => by cases (true != decide (q < 0)) <;> simp
  · change (signed (F64.ofRat (0 * 0)) (true != true)).sign = (true != true)
    rw [zero_mul]
    exact sign_ofRat (by simp) (by simp) fun _ => by simp

/-- The sign of `-x` is the other one. -/
theorem sign_neg (a : F64Z) (h : a.val ≠ .nan) : (GoNum.neg a).sign = !a.sign := by
  change (F64Z.neg a).sign = _
  rcases a with (_ | s | p) | _
  · exact absurd rfl h
  · rfl
  · change (signed (.fin (-p)) (!decide (p < 0))).sign = !decide (p < 0)
    unfold signed
    by_cases hp : p = 0
    · subst hp; rfl
    · have : ¬(F64.fin (-p) = .fin 0 ∧ (!decide (p < 0)) = true) := fun hh => hp (by
        have := hh.1; injection this with this; linarith)
      rw [if_neg this]
      change decide (-p < 0) = _
      rcases lt_or_gt_of_ne hp with h1 | h1
      · simp [h1, h1.le]
      · simp [h1, h1.le]
  · rfl

/-- A sum that is zero is `-0` if both terms have a negative sign (both are `-0`, then), and `+0` otherwise. -/
theorem zero_sum (a b : F64Z) (h : (GoNum.add a b).val = .fin 0) :
    GoNum.add a b = negZero ↔ a.sign = true ∧ b.sign = true := by
  change F64Z.add a b = negZero ↔ _
  change (F64Z.add a b).val = _ at h
  unfold F64Z.add at h ⊢
  rw [signed_val] at h
  rw [h]
  unfold signed
  by_cases hs : a.sign = true ∧ b.sign = true
  · simp [hs]
  · have : (a.sign && b.sign) = false := by
      cases ha : a.sign <;> cases hb : b.sign <;> simp_all
    simp [this, hs]

end F64Z

/-! ## Runs that agree up to the sign of zeros -/

/-- Both runs panic, with the same error, or both return, and the results are the same under `f`. -/
def RunsAlike {α β : Type} (f : α → β) (x y : Go α) : Prop :=
  (∃ e, x = .error e ∧ y = .error e) ∨ ∃ a b, x = .ok a ∧ y = .ok b ∧ f a = f b

theorem runsAlike_iff {α β : Type} {f : α → β} {x y : Go α} : RunsAlike f x y ↔ f <$> x = f <$> y := by
  constructor
  · rintro (⟨e, rfl, rfl⟩ | ⟨a, b, rfl, rfl, h⟩)
    · rfl
    · exact congrArg Except.ok h
  · intro h
    cases x with
    | error e =>
      cases y with
      | error e' => left; refine ⟨e, rfl, ?_⟩; injection h with h; rw [h]
      | ok b => injection h
    | ok a =>
      cases y with
      | error e' => injection h
      | ok b => right; refine ⟨a, b, rfl, rfl, ?_⟩; injection h

/-- Two numbers are equal, or both are zeros. -/
def F64Z.Same (a b : F64Z) : Prop := a = b ∨ (a.val = .fin 0 ∧ b.val = .fin 0)

theorem F64Z.same_iff {a b : F64Z} : a.Same b ↔ a.val = b.val := by
  constructor
  · rintro (rfl | ⟨h1, h2⟩)
    · rfl
    · rw [h1, h2]
  · intro h
    cases a <;> cases b
    · left; exact congrArg F64Z.num h
    · right; exact ⟨h, rfl⟩
    · right; exact ⟨rfl, h.symm⟩
    · left; rfl

/-- The same expression but for the signs of zeros. -/
def Scalar.SameZ (a b : Scalar F64Z) : Prop := a.mapNum F64Z.erase = b.mapNum F64Z.erase
def Expr.SameZ (a b : Expr F64Z) : Prop := a.mapNum F64Z.erase = b.mapNum F64Z.erase
def Var.SameZ (a b : Var F64Z) : Prop := a.mapNum F64Z.erase = b.mapNum F64Z.erase
def SubMap.SameZ (a b : SubMap F64Z) : Prop := a.mapNum F64Z.erase = b.mapNum F64Z.erase
def Con.SameZ (a b : Con F64Z) : Prop := a.mapNum F64Z.erase = b.mapNum F64Z.erase
def SCon.SameZ (a b : SCon F64Z) : Prop := a.mapNum F64Z.erase = b.mapNum F64Z.erase
def VCon.SameZ (a b : VCon F64Z) : Prop := a.mapNum F64Z.erase = b.mapNum F64Z.erase

/-- What it means for scalars: the same kind, the same variables and exponents, numbers that differ at most in the sign
of zeros. -/
theorem Mono.sameZ_iff {a b : Mono F64Z} : Scalar.SameZ (.mono a) (.mono b) ↔
    a.coeff.Same b.coeff ∧ a.exps = b.exps ∧ List.Forall₂ Var.SameZ a.vars b.vars := by
  rw [F64Z.same_iff]
  have hv : ∀ l l' : List (Var F64Z), l.map (Var.mapNum F64Z.erase) = l'.map (Var.mapNum F64Z.erase) ↔
      List.Forall₂ Var.SameZ l l' := by
    intro l
    induction l with
    | nil => intro l'; cases l' <;> simp
    | cons x l ih => intro l'; cases l' <;> simp [ih, Var.SameZ]
  rw [← hv]
  simp [Scalar.SameZ, Mono.mapNum, F64Z.erase, Recode.ofNum]

section
variable {a a' b b' : Expr F64Z}

theorem sameZ_of {α β : Type} {f : α → β} {x y : Go α} {x' y' : Go β} (hx : x' = f <$> x) (hy : y' = f <$> y)
    (h : x' = y') : RunsAlike f x y := by
  rw [runsAlike_iff, ← hx, ← hy, h]

/-- `Plus`, `Minus`, `Multiply`, `Comparison` of any expressions. -/
theorem zeros_binary (ha : a.SameZ a') (hb : b.SameZ b') (sn : Sense) :
    RunsAlike (Expr.mapNum F64Z.erase) (a.plus b) (a'.plus b') ∧
    RunsAlike (Expr.mapNum F64Z.erase) (a.minus b) (a'.minus b') ∧
    RunsAlike (Expr.mapNum F64Z.erase) (a.mul b) (a'.mul b') ∧
    RunsAlike (Con.mapNum F64Z.erase) (a.comparison b sn) (a'.comparison b' sn) := by
  refine ⟨sameZ_of (F64Z.unsigned.expr_plus a b) (F64Z.unsigned.expr_plus a' b') ?_, sameZ_of (F64Z.unsigned.expr_minus a b) (F64Z.unsigned.expr_minus a' b') ?_,
    sameZ_of (F64Z.unsigned.expr_mul a b) (F64Z.unsigned.expr_mul a' b') ?_, sameZ_of (F64Z.unsigned.comparison a b sn) (F64Z.unsigned.comparison a' b' sn) ?_⟩
  all_goals rw [show a.mapNum F64Z.unsigned.f = a'.mapNum F64Z.unsigned.f from ha, show b.mapNum F64Z.unsigned.f = b'.mapNum F64Z.unsigned.f from hb]

/-- `Power`, `Transpose`, `AsSimplifiedExpression`, `At`. -/
theorem zeros_unary (ha : a.SameZ a') (n i j : ℤ) :
    RunsAlike (Expr.mapNum F64Z.erase) (a.power n) (a'.power n) ∧
    RunsAlike (Expr.mapNum F64Z.erase) a.transpose a'.transpose ∧
    RunsAlike (Expr.mapNum F64Z.erase) a.asSimplified a'.asSimplified ∧
    RunsAlike (Scalar.mapNum F64Z.erase) (a.at i j) (a'.at i j) := by
  refine ⟨sameZ_of (F64Z.unsigned.expr_power a n) (F64Z.unsigned.expr_power a' n) ?_, sameZ_of (F64Z.unsigned.expr_transpose a) (F64Z.unsigned.expr_transpose a') ?_,
    sameZ_of (F64Z.unsigned.expr_asSimplified a) (F64Z.unsigned.expr_asSimplified a') ?_, sameZ_of (F64Z.unsigned.expr_at a i j) (F64Z.unsigned.expr_at a' i j) ?_⟩
  all_goals rw [show a.mapNum F64Z.unsigned.f = a'.mapNum F64Z.unsigned.f from ha]

/-- `HStack`, `VStack`. -/
theorem zeros_stack {l l' : List (Expr F64Z)} (h : List.Forall₂ Expr.SameZ l l') :
    RunsAlike (Expr.mapNum F64Z.erase) (hstack l) (hstack l') ∧ RunsAlike (Expr.mapNum F64Z.erase) (vstack l) (vstack l') := by
  have he : l.map (Expr.mapNum F64Z.unsigned.f) = l'.map (Expr.mapNum F64Z.unsigned.f) := by
    induction h with
    | nil => rfl
    | cons hx _ ih => rw [List.map_cons, List.map_cons, ih]; exact congrArg (· :: _) hx
  exact ⟨sameZ_of (F64Z.unsigned.hstack l) (F64Z.unsigned.hstack l') (by rw [he]), sameZ_of (F64Z.unsigned.vstack l) (F64Z.unsigned.vstack l') (by rw [he])⟩

/-- `Substitute`, `SubstituteAccordingTo`, `DerivativeWrt`. -/
theorem zeros_calculus (ha : a.SameZ a') {v v' : Var F64Z} (hv : v.SameZ v') {s s' : Scalar F64Z} (hs : s.SameZ s')
    {sm sm' : SubMap F64Z} (hm : sm.SameZ sm') :
    RunsAlike (Expr.mapNum F64Z.erase) (a.substitute v s) (a'.substitute v' s') ∧
    RunsAlike (Expr.mapNum F64Z.erase) (a.substMap sm) (a'.substMap sm') ∧
    RunsAlike (Expr.mapNum F64Z.erase) (a.derivative v) (a'.derivative v') := by
  refine ⟨sameZ_of (F64Z.unsigned.expr_substitute a v s) (F64Z.unsigned.expr_substitute a' v' s') ?_,
    sameZ_of (F64Z.unsigned.expr_substMap F64Z.unsigned_keys a sm) (F64Z.unsigned.expr_substMap F64Z.unsigned_keys a' sm') ?_,
    sameZ_of (F64Z.unsigned.expr_derivative a v) (F64Z.unsigned.expr_derivative a' v') ?_⟩
  · rw [show a.mapNum F64Z.unsigned.f = a'.mapNum F64Z.unsigned.f from ha, show v.mapNum F64Z.unsigned.f = v'.mapNum F64Z.unsigned.f from hv,
      show s.mapNum F64Z.unsigned.f = s'.mapNum F64Z.unsigned.f from hs]
  · rw [show a.mapNum F64Z.unsigned.f = a'.mapNum F64Z.unsigned.f from ha, show sm.mapNum F64Z.unsigned.f = sm'.mapNum F64Z.unsigned.f from hm]
  · rw [show a.mapNum F64Z.unsigned.f = a'.mapNum F64Z.unsigned.f from ha, show v.mapNum F64Z.unsigned.f = v'.mapNum F64Z.unsigned.f from hv]

/-- `Check`, `Dims`, `Degree`, `IsLinear`, `Variables`. -/
theorem zeros_queries (ha : a.SameZ a') :
    a.check = a'.check ∧ a.dims = a'.dims ∧ a.degree = a'.degree ∧ a.isLinear = a'.isLinear ∧
    RunsAlike (List.map (Var.mapNum F64Z.erase)) a.variables a'.variables := by
  have h : a.mapNum F64Z.unsigned.f = a'.mapNum F64Z.unsigned.f := ha
  exact ⟨by rw [← F64Z.unsigned.expr_check a, h, F64Z.unsigned.expr_check], by rw [← F64Z.unsigned.expr_dims a, h, F64Z.unsigned.expr_dims],
    by rw [← F64Z.unsigned.expr_degree a, h, F64Z.unsigned.expr_degree], by rw [← F64Z.unsigned.expr_isLinear a, h, F64Z.unsigned.expr_isLinear],
    sameZ_of (F64Z.unsigned.expr_variables a) (F64Z.unsigned.expr_variables a') (by rw [h])⟩

/-- `Constant` and `LinearCoeff` of scalars and vectors. -/
theorem zeros_coeffs {x x' : Scalar F64Z} (hx : x.SameZ x') {y y' : Vec F64Z} (hy : (Expr.v y).SameZ (.v y'))
    (w : List (List (Var F64Z))) :
    RunsAlike F64Z.val x.constant x'.constant ∧ RunsAlike (List.map F64Z.val) (x.linearCoeff w) (x'.linearCoeff w) ∧
    RunsAlike (List.map F64Z.val) y.constant y'.constant ∧
    RunsAlike (List.map (List.map F64Z.val)) (y.linearCoeff w) (y'.linearCoeff w) := by
  have hy' : y.mapNum F64Z.unsigned.f = y'.mapNum F64Z.unsigned.f := by injection hy
  have hx' : x.mapNum F64Z.unsigned.f = x'.mapNum F64Z.unsigned.f := hx
  exact ⟨sameZ_of (F64Z.unsigned.constant x) (F64Z.unsigned.constant x') (by rw [hx']),
    sameZ_of (F64Z.unsigned.linearCoeff x w) (F64Z.unsigned.linearCoeff x' w) (by rw [hx']),
    sameZ_of (F64Z.unsigned.vec_constant y) (F64Z.unsigned.vec_constant y') (by rw [hy']),
    sameZ_of (F64Z.unsigned.vec_linearCoeff y w) (F64Z.unsigned.vec_linearCoeff y' w) (by rw [hy'])⟩

/-! ## Constraints -/

/-- `Check`, `IsLinear`, `AsSimplifiedConstraint`, `Substitute`, `SubstituteAccordingTo`. -/
theorem zeros_constraint {c c' : Con F64Z} (hc : c.SameZ c') {v v' : Var F64Z} (hv : v.SameZ v')
    {s s' : Scalar F64Z} (hs : s.SameZ s') {sm sm' : SubMap F64Z} (hm : sm.SameZ sm') :
    c.check = c'.check ∧ c.isLinear = c'.isLinear ∧
    RunsAlike (Con.mapNum F64Z.erase) c.simplify c'.simplify ∧
    RunsAlike (Con.mapNum F64Z.erase) (c.substitute v s) (c'.substitute v' s') ∧
    RunsAlike (Con.mapNum F64Z.erase) (c.substMap sm) (c'.substMap sm') := by
  have h : c.mapNum F64Z.unsigned.f = c'.mapNum F64Z.unsigned.f := hc
  refine ⟨by rw [← F64Z.unsigned.con_check c, h, F64Z.unsigned.con_check], by rw [← F64Z.unsigned.con_isLinear c, h, F64Z.unsigned.con_isLinear],
    sameZ_of (F64Z.unsigned.con_simplify c) (F64Z.unsigned.con_simplify c') (by rw [h]),
    sameZ_of (F64Z.unsigned.con_substitute c v s) (F64Z.unsigned.con_substitute c' v' s') ?_,
    sameZ_of (F64Z.unsigned.con_substMap F64Z.unsigned_keys c sm) (F64Z.unsigned.con_substMap F64Z.unsigned_keys c' sm') ?_⟩
  · rw [h, show v.mapNum F64Z.unsigned.f = v'.mapNum F64Z.unsigned.f from hv, show s.mapNum F64Z.unsigned.f = s'.mapNum F64Z.unsigned.f from hs]
  · rw [h, show sm.mapNum F64Z.unsigned.f = sm'.mapNum F64Z.unsigned.f from hm]

/-- The linear representations, `ScaleBy`, and `IsNonnegativityConstraint`. -/
theorem zeros_linear {c c' : SCon F64Z} (hc : c.SameZ c') {d d' : VCon F64Z} (hd : d.SameZ d')
    (w : List (List (Var F64Z))) {x x' : F64Z} (hx : x.Same x') :
    RunsAlike (Prod.map (List.map F64Z.val) F64Z.val) (c.linearIneq w) (c'.linearIneq w) ∧
    RunsAlike (Prod.map (List.map F64Z.val) F64Z.val) (c.linearEq w) (c'.linearEq w) ∧
    RunsAlike (Prod.map (List.map (List.map F64Z.val)) (List.map F64Z.val)) (d.linearIneq w) (d'.linearIneq w) ∧
    RunsAlike (Prod.map (List.map (List.map F64Z.val)) (List.map F64Z.val)) (d.linearEq w) (d'.linearEq w) ∧
    RunsAlike (SCon.mapNum F64Z.erase) (c.scaleBy x) (c'.scaleBy x') ∧ c.isNonneg = c'.isNonneg := by
  have h : c.mapNum F64Z.unsigned.f = c'.mapNum F64Z.unsigned.f := hc
  have h' : d.mapNum F64Z.unsigned.f = d'.mapNum F64Z.unsigned.f := hd
  have hx' : F64Z.unsigned.f x = F64Z.unsigned.f x' := F64Z.same_iff.mp hx
  exact ⟨sameZ_of (F64Z.unsigned.scon_linearIneq c w) (F64Z.unsigned.scon_linearIneq c' w) (by rw [h]),
    sameZ_of (F64Z.unsigned.scon_linearEq c w) (F64Z.unsigned.scon_linearEq c' w) (by rw [h]),
    sameZ_of (F64Z.unsigned.vcon_linearIneq d w) (F64Z.unsigned.vcon_linearIneq d' w) (by rw [h']),
    sameZ_of (F64Z.unsigned.vcon_linearEq d w) (F64Z.unsigned.vcon_linearEq d' w) (by rw [h']),
    sameZ_of (F64Z.unsigned.scon_scaleBy c x) (F64Z.unsigned.scon_scaleBy c' x') (by rw [h, hx']),
    by rw [← F64Z.unsigned.scon_isNonneg F64Z.unsigned_keys c, h, F64Z.unsigned.scon_isNonneg F64Z.unsigned_keys]⟩

/-- `CompileConstraintsIntoScalarConstraints`. -/
theorem zeros_compile {l l' : List (Con F64Z)} (h : List.Forall₂ Con.SameZ l l') :
    RunsAlike (List.map (SCon.mapNum F64Z.erase)) (compileAll l) (compileAll l') := by
  have he : l.map (Con.mapNum F64Z.unsigned.f) = l'.map (Con.mapNum F64Z.unsigned.f) := by
    induction h with
    | nil => rfl
    | cons hx _ ih => rw [List.map_cons, List.map_cons, ih]; exact congrArg (· :: _) hx
  exact sameZ_of (F64Z.unsigned.compileAll l) (F64Z.unsigned.compileAll l') (by rw [he])

/-- `ImpliesThisIsAlsoSatisfied`, provided that no coefficient it divides by is zero; without this the answers can
differ (`zeros_implies_false`). -/
theorem zeros_implies_partial {c c' o o' : Con F64Z} (hc : c.SameZ c') (ho : o.SameZ o')
    (h1 : c.CoeffNonzero) (h2 : c'.CoeffNonzero) (h3 : o.CoeffNonzero) (h4 : o'.CoeffNonzero) :
    c.implies o = c'.implies o' := by
  rw [← NumHom.con_implies F64Z.unsigned_div F64Z.unsigned_keys h1 h3, ← NumHom.con_implies F64Z.unsigned_div F64Z.unsigned_keys h2 h4,
    show c.mapNum F64Z.unsigned.f = c'.mapNum F64Z.unsigned.f from hc, show o.mapNum F64Z.unsigned.f = o'.mapNum F64Z.unsigned.f from ho]

/-! ## Programs -/

/-- Two programs that make the same calls with numbers that differ at most in the sign of zeros. -/
theorem zeros_program {p q : Prog F64Z} (h : p.mapNum F64Z.erase = q.mapNum F64Z.erase) :
    RunsAlike (Scalar.mapNum F64Z.erase) p.run q.run :=
  sameZ_of (F64Z.unsigned.prog_run F64Z.unsigned_keys p) (F64Z.unsigned.prog_run F64Z.unsigned_keys q) (by rw [show p.mapNum F64Z.unsigned.f = q.mapNum F64Z.unsigned.f from h])

theorem zeros_arrayProgram {r c : ℕ} {p q : AProg F64Z r c} (h : p.mapNum F64Z.erase = q.mapNum F64Z.erase) :
    RunsAlike (Expr.mapNum F64Z.erase) p.run q.run :=
  sameZ_of (F64Z.unsigned.aprog_run F64Z.unsigned_keys p) (F64Z.unsigned.aprog_run F64Z.unsigned_keys q) (by rw [show p.mapNum F64Z.unsigned.f = q.mapNum F64Z.unsigned.f from h])

theorem zeros_conProgram {p q : ConProg F64Z} (h : p.mapNum F64Z.erase = q.mapNum F64Z.erase) :
    RunsAlike (SCon.mapNum F64Z.erase) p.run q.run :=
  sameZ_of (F64Z.unsigned.conProg_run F64Z.unsigned_keys p) (F64Z.unsigned.conProg_run F64Z.unsigned_keys q) (by rw [show p.mapNum F64Z.unsigned.f = q.mapNum F64Z.unsigned.f from h])

theorem zeros_arrayConProgram {r c : ℕ} {p q : AConProg F64Z r c} (h : p.mapNum F64Z.erase = q.mapNum F64Z.erase) :
    RunsAlike (Con.mapNum F64Z.erase) p.run q.run :=
  sameZ_of (F64Z.unsigned.aconProg_run F64Z.unsigned_keys p) (F64Z.unsigned.aconProg_run F64Z.unsigned_keys q) (by rw [show p.mapNum F64Z.unsigned.f = q.mapNum F64Z.unsigned.f from h])

/-- What a program does with two zeros is what it does with one: the results for `F64` (C68, C78 to C84) are results
for `float64` with both zeros. -/
theorem zeros_erase (p : Prog F64Z) {r c : ℕ} (q : AProg F64Z r c) (k : ConProg F64Z) (l : AConProg F64Z r c) :
    Scalar.mapNum F64Z.erase <$> p.run = (p.mapNum F64Z.erase).run ∧
    Expr.mapNum F64Z.erase <$> q.run = (q.mapNum F64Z.erase).run ∧
    SCon.mapNum F64Z.erase <$> k.run = (k.mapNum F64Z.erase).run ∧
    Con.mapNum F64Z.erase <$> l.run = (l.mapNum F64Z.erase).run :=
  ⟨(F64Z.unsigned.prog_run F64Z.unsigned_keys p).symm, (F64Z.unsigned.aprog_run F64Z.unsigned_keys q).symm, (F64Z.unsigned.conProg_run F64Z.unsigned_keys k).symm, (F64Z.unsigned.aconProg_run F64Z.unsigned_keys l).symm⟩

/-! ## Texts -/

/-- No entry begins with the coefficient `-0`. -/
def Scalar.NoNegZero (a : Scalar F64Z) : Prop := ∀ m, a.terms.head? = some m → m.coeff ≠ .negZero
def Expr.NoNegZero (e : Expr F64Z) : Prop := ∀ row ∈ e.grid, ∀ a ∈ row, a.NoNegZero

theorem fmtZ_eq {t : ℤ} {c : F64Z} (h : c ≠ .negZero) : fmtFloat t c.val = fmtFloatZ t c := by
  cases c with
  | num x => rfl
  | negZero => exact absurd rfl h

theorem absVal_noNegZero (c : F64Z) : absVal c ≠ .negZero := by
  cases c with
  | negZero => decide +kernel
  | num x =>
    cases x with
    | nan => intro h; cases h
    | inf s => cases s <;> intro h <;> cases h
    | fin q =>
      change (if decide (q < 0) = true then F64Z.signed (.fin (-q)) (!decide (q < 0)) else
        if decide (q = 0) = true then F64Z.num (.fin 0) else .num (.fin q)) ≠ _
      split
      · rename_i h
        simp only [h, F64Z.signed]
        simp
      · split <;> simp

theorem Mono.chars_zeros {t : ℤ} {m : Mono F64Z} (h : m.coeff ≠ .negZero) :
    m.chars (fun c => fmtFloat t c.val) = m.chars (fmtFloatZ t) := by
  simp only [Mono.chars, fmtZ_eq h]

theorem tailChars_zeros {t : ℤ} (l : List (Mono F64Z)) :
    tailChars (fun c => fmtFloat t c.val) l = tailChars (fmtFloatZ t) l := by
  induction l with
  | nil => rfl
  | cons m l ih =>
    simp only [tailChars, ih, Mono.chars_zeros (m := { m with coeff := absVal m.coeff }) (absVal_noNegZero m.coeff)]

theorem Poly.chars_zeros {t : ℤ} {p : Poly F64Z} (h : (Scalar.poly p).NoNegZero) :
    p.chars (fun c => fmtFloat t c.val) = p.chars (fmtFloatZ t) := by
  obtain ⟨l⟩ := p
  cases l with
  | nil => rfl
  | cons m l => simp only [Poly.chars, tailChars_zeros, Mono.chars_zeros (h m rfl)]

theorem Scalar.chars_zeros {t : ℤ} {a : Scalar F64Z} (h : a.NoNegZero) :
    a.chars (fun c => fmtFloat t c.val) = a.chars (fmtFloatZ t) := by
  cases a with
  | k c => exact congrArg Except.ok (fmtZ_eq (h _ rfl))
  | var v => rfl
  | mono m => exact Mono.chars_zeros (h m rfl)
  | poly p => exact Poly.chars_zeros h

theorem mapM_same {α γ : Type} {g h : α → Go γ} {l : List α} (hg : ∀ a ∈ l, g a = h a) : l.mapM g = l.mapM h := by
  have := mapM_plain (f := id) (g := g) (h := h) (l := l) hg
  rwa [List.map_id] at this

theorem flatMap_same {α : Type} {g h : α × ℕ → List Char} {l : List α} (hg : ∀ a ∈ l, ∀ i, g (a, i) = h (a, i)) :
    l.zipIdx.flatMap g = l.zipIdx.flatMap h := by
  have := zipIdx_flatMap (f := id) (g := g) (h := h) (l := l) (n := 0) hg
  rwa [List.map_id] at this

theorem Vec.chars_zeros {t : ℤ} {a : Vec F64Z} (h : (Expr.v a).NoNegZero) :
    a.chars (fun c => fmtFloat t c.val) = a.chars (fmtFloatZ t) := by
  have h' : ∀ x ∈ a.entries, x.NoNegZero := fun x hx => h [x] (List.mem_map.mpr ⟨x, hx, rfl⟩) x List.mem_cons_self
  cases a with
  | k l =>
    have : l.map (fun c => fmtFloat t c.val) = l.map (fmtFloatZ t) := List.map_congr_left fun c hx =>
      fmtZ_eq (h' (.k c) (List.mem_map.mpr ⟨c, hx, rfl⟩) _ rfl)
    simp only [Vec.chars, this]
  | v l => rfl
  | m l =>
    have : l.mapM (Mono.chars fun c => fmtFloat t c.val) = l.mapM (Mono.chars (fmtFloatZ t)) := mapM_same fun m hx =>
      Mono.chars_zeros (h' (.mono m) (List.mem_map.mpr ⟨m, hx, rfl⟩) _ rfl)
    simp only [Vec.chars, this]
  | p l =>
    have : l.mapM (Poly.chars fun c => fmtFloat t c.val) = l.mapM (Poly.chars (fmtFloatZ t)) := mapM_same fun p hx =>
      Poly.chars_zeros (h' (.poly p) (List.mem_map.mpr ⟨p, hx, rfl⟩))
    simp only [Vec.chars, this]

theorem Mat.chars_zeros {t : ℤ} {a : Mat F64Z} (h : (Expr.m a).NoNegZero) :
    a.chars (fun c => fmtFloat t c.val) = a.chars (fmtFloatZ t) := by
  cases a with
  | k l =>
    simp only [Mat.chars, kmatChars]
    congr 1
    funext d
    rw [flatMap_same]
    intro r hr i
    have : r.map (fun c => fmtFloat t c.val) = r.map (fmtFloatZ t) := List.map_congr_left fun c hx =>
      fmtZ_eq (h _ (List.mem_map.mpr ⟨r, hr, rfl⟩) (.k c) (List.mem_map.mpr ⟨c, hx, rfl⟩) _ rfl)
    simp only [this]
  | v l => rfl
  | m l =>
    have : l.mapM (fun row => row.mapM (Mono.chars fun c => fmtFloat t c.val)) =
        l.mapM (fun row => row.mapM (Mono.chars (fmtFloatZ t))) := mapM_same fun r hr => mapM_same fun m hx =>
      Mono.chars_zeros (h _ (List.mem_map.mpr ⟨r, hr, rfl⟩) (.mono m) (List.mem_map.mpr ⟨m, hx, rfl⟩) _ rfl)
    simp only [Mat.chars, mmatChars, this]
  | p l =>
    have : l.mapM (fun row => row.mapM (Poly.chars fun c => fmtFloat t c.val)) =
        l.mapM (fun row => row.mapM (Poly.chars (fmtFloatZ t))) := mapM_same fun r hr => mapM_same fun p hx =>
      Poly.chars_zeros (h _ (List.mem_map.mpr ⟨r, hr, rfl⟩) (.poly p) (List.mem_map.mpr ⟨p, hx, rfl⟩))
    simp only [Mat.chars, pmatChars, this]

/-- The text of an expression no entry of which begins with `-0` is the one that the model with one zero gives (C84);
with a `-0` it is not (`zeros_text_false`). -/
theorem zeros_text_partial {t : ℤ} {e : Expr F64Z} (h : e.NoNegZero) :
    e.chars (fmtFloatZ t) = (e.mapNum F64Z.erase).chars (fmtFloat t) := by
  refine Eq.trans ?_ (F64Z.unsigned.expr_chars (fmtFloat t) F64Z.unsigned_names e).symm
  cases e with
  | s a => exact (Scalar.chars_zeros (h [a] List.mem_cons_self a List.mem_cons_self)).symm
  | v a => exact (Vec.chars_zeros h).symm
  | m a => exact (Mat.chars_zeros h).symm

/-- Expressions that differ at most in the signs of zeros, and begin with no `-0`, print alike. -/
theorem zeros_text_alike_partial {t : ℤ} {a b : Expr F64Z} (h : a.SameZ b) (ha : a.NoNegZero) (hb : b.NoNegZero) :
    a.chars (fmtFloatZ t) = b.chars (fmtFloatZ t) := by
  rw [zeros_text_partial ha, zeros_text_partial hb, show a.mapNum F64Z.erase = b.mapNum F64Z.erase from h]

end

/-! ## Where the sign of a zero shows -/

section
open GoNum

/-- The text: `K(0).Multiply(-1)` prints `-0`, `K(0)` prints `0`; the two differ in the sign of a zero only. -/
theorem zeros_text_false : ∃ (c : F64Z) (a b : Expr F64Z),
    (Expr.s (.k (.num (.fin 0)))).mul (.s (.k c)) = .ok a ∧ b = .s (.k (.num (.fin 0))) ∧ a.SameZ b ∧
    a.chars (fmtFloatZ 21) = .ok ['-', '0'] ∧ b.chars (fmtFloatZ 21) = .ok ['0'] :=
  ⟨.num (.fin (-1)), .s (.k .negZero), _, by decide +kernel, rfl, rfl, by decide +kernel, by decide +kernel⟩

/-- In the tail of a polynomial a `-0` does not show: `String` prints `math.Abs` of the coefficient after a sign that
it finds by `>= 0`. -/
theorem zeros_text_tail (x y : Var F64Z) (t : ℤ) :
    Scalar.chars (fmtFloatZ t) (.poly ⟨[x.toMono, { y.toMono with coeff := .negZero }]⟩) =
      Scalar.chars (fmtFloatZ t) (.poly ⟨[x.toMono, { y.toMono with coeff := .num (.fin 0) }]⟩) := by
  rw [← Scalar.chars_zeros (t := t) (a := .poly ⟨[x.toMono, { y.toMono with coeff := .negZero }]⟩),
    ← Scalar.chars_zeros (t := t) (a := .poly ⟨[x.toMono, { y.toMono with coeff := .num (.fin 0) }]⟩)]
  · exact (F64Z.unsigned.scalar_chars (fmtFloat t) F64Z.unsigned_names _).symm.trans (F64Z.unsigned.scalar_chars (fmtFloat t) F64Z.unsigned_names _)
  all_goals
    intro m hm
    injection hm with hm
    subst hm
    intro h
    cases h

def zeroVar : Var F64Z := ⟨1, .num (.inf true), .num (.inf false), 67, "x_1", 0⟩

/-- `z x <= r` -/
def zeroCon (z r : F64Z) : SCon F64Z := ⟨.mono ⟨z, [1], [zeroVar]⟩, .k r, .le⟩

/-- `x.Multiply(c).Multiply(0.0)` -/
def zeroTimes (c : ℚ) : Go (Expr F64Z) := do
  (← (Expr.s (.var zeroVar)).mul (.s (.k (.num (.fin c))))).mul (.s (.k (.num (.fin 0))))

/-- `ImpliesThisIsAlsoSatisfied`: it divides by the coefficient without looking at it.  `0 x <= -1`, where `0 x` is
`x.Multiply(3.0).Multiply(0.0)`, is said to imply `x <= 5`; `-0 x <= -1`, where `-0 x` is
`x.Multiply(-3.0).Multiply(0.0)`, is not. -/
theorem zeros_implies_false :
    zeroTimes 3 = .ok (.s (zeroCon (.num (.fin 0)) (.num (.fin (-1)))).lhs) ∧
    zeroTimes (-3) = .ok (.s (zeroCon .negZero (.num (.fin (-1)))).lhs) ∧
    (Con.s (zeroCon (.num (.fin 0)) (.num (.fin (-1))))).SameZ (.s (zeroCon .negZero (.num (.fin (-1))))) ∧
    (Con.s (zeroCon (.num (.fin 0)) (.num (.fin (-1))))).implies (.s ⟨.var zeroVar, .k (.num (.fin 5)), .le⟩) = .ok true ∧
    (Con.s (zeroCon .negZero (.num (.fin (-1))))).implies (.s ⟨.var zeroVar, .k (.num (.fin 5)), .le⟩) = .ok false := by
  refine ⟨?_, ?_, rfl, ?_, ?_⟩ <;> decide +kernel

/-! ## Concrete cases -/

theorem zeroCon_coeff {r : F64Z} (hr : r = .num (.fin 0) ∨ r = .negZero) :
    (Con.s (zeroCon (.num (.fin 2)) r)).CoeffNonzero := by
  have h : ∃ x, (zeroCon (.num (.fin 2)) r).simplify = .ok x ∧
      ∃ vs, Con.variables (.s x) = .ok vs ∧ x.lhs.linearCoeff [vs] = .ok [.num (.fin 2)] := by
    rcases hr with rfl | rfl
    · exact ⟨zeroCon (.num (.fin 2)) (.num (.fin 0)), by decide +kernel, [zeroVar], by decide +kernel, by decide +kernel⟩
    · exact ⟨zeroCon (.num (.fin 2)) .negZero, by decide +kernel, [zeroVar], by decide +kernel, by decide +kernel⟩
  obtain ⟨x, h1, vs, h2, h3⟩ := h
  intro c' hc vs' hv A hA y hy
  rw [h1] at hc
  cases hc
  rw [h2] at hv
  cases hv
  rw [h3] at hA
  cases hA
  rw [List.mem_singleton.mp hy]
  decide +kernel

/-- `2 x <= 0` and `2 x <= -0`, with the hypotheses of `zeros_implies_partial`; and what they imply. -/
example : (Con.s (zeroCon (.num (.fin 2)) (.num (.fin 0)))).implies (.s ⟨.var zeroVar, .k (.num (.fin 5)), .le⟩) = .ok true ∧
    (Con.s (zeroCon (.num (.fin 2)) (.num (.fin 0)))).implies (.s (zeroCon (.num (.fin 2)) .negZero)) =
      (Con.s (zeroCon (.num (.fin 2)) .negZero)).implies (.s (zeroCon (.num (.fin 2)) (.num (.fin 0)))) :=
  ⟨by decide +kernel, zeros_implies_partial rfl rfl (zeroCon_coeff (.inl rfl)) (zeroCon_coeff (.inr rfl))
    (zeroCon_coeff (.inr rfl)) (zeroCon_coeff (.inl rfl))⟩

/-- `3 x * 0` and `3 x * (-0)`: the results agree, though they are not the same. -/
example : (Expr.s (.k (.num (.fin 0)))).SameZ (.s (.k .negZero)) ∧
    RunsAlike (Expr.mapNum F64Z.erase) ((Expr.s (zeroCon (.num (.fin 3)) one).lhs).mul (.s (.k (.num (.fin 0)))))
      ((Expr.s (zeroCon (.num (.fin 3)) one).lhs).mul (.s (.k .negZero))) ∧
    (Expr.s (zeroCon (.num (.fin 3)) one).lhs).mul (.s (.k (.num (.fin 0)))) ≠
      (Expr.s (zeroCon (.num (.fin 3)) one).lhs).mul (.s (.k .negZero)) :=
  ⟨rfl, (zeros_binary (a := .s (zeroCon (.num (.fin 3)) one).lhs) (a' := .s (zeroCon (.num (.fin 3)) one).lhs)
    (b := .s (.k (.num (.fin 0)))) (b' := .s (.k .negZero)) rfl rfl .eq).2.2.1, by decide +kernel⟩

/-- A program with a `-0` in it: `(x * -0) + x`. -/
example : RunsAlike (Scalar.mapNum F64Z.erase)
    (Prog.plus (.mul (.k .negZero) (.var zeroVar)) (.var zeroVar)).run
    (Prog.plus (.mul (.k (.num (.fin 0))) (.var zeroVar)) (.var zeroVar)).run :=
  zeros_program rfl

/-- Products: `0 * -1 = -0`, and `-2^-1074 * 2^-1 = -0` by underflow; sums: `-0 + -0 = -0`, `1 - 1 = 0`. -/
example : (mul (.num (.fin 0)) (.num (.fin (-1))) : F64Z) = .negZero ∧
    (add .negZero .negZero : F64Z) = .negZero ∧ (add .negZero (.num (.fin 0)) : F64Z) = .num (.fin 0) ∧
    (sub (.num (.fin 1)) (.num (.fin 1)) : F64Z) = .num (.fin 0) ∧
    (div one .negZero : F64Z) = .num (.inf true) := by decide +kernel

/-- An expression that begins with no `-0`. -/
example : (Expr.s (.poly ⟨[zeroVar.toMono, ⟨.negZero, [], []⟩]⟩)).NoNegZero := by
  intro row hr a ha m hm
  rw [List.mem_singleton.mp hr] at ha
  rw [List.mem_singleton.mp ha] at hm
  cases hm
  intro h
  cases h

end

end Verif
