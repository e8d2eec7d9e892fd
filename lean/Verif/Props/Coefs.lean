import Verif.Lemmas.CoefSum
import Verif.Props.RoundVecLin

/-!
# C88: sums and differences are computed coefficient by coefficient

If no exponent vector is written twice in an operand, each coefficient of `a.Plus(b)` and `a.Minus(b)` is the
`float64` sum or difference of the two coefficients: one operation, correctly rounded, whatever else is in the
expressions; overflow, infinities and NaN included.
-/

set_option linter.unusedSectionVars false

namespace Verif

open MvPolynomial

/-! ## Specification -/

/-- The coefficient of the exponents `d`: that of the term that has them, or zero. -/
noncomputable def Scalar.coeffAt {R : Type} [GoNum R] (s : Scalar R) (d : ℕ →₀ ℕ) : R := fco d s.terms

/-- An infinity, NaN, or a number with 53 bits. -/
def F64.Value : F64 → Prop
  | .fin q => F64.Able q
  | _ => True

/-- All coefficients are `float64` numbers, possibly infinite or NaN. -/
def Scalar.NumsValid (s : Scalar F64) : Prop := ∀ m ∈ s.terms, m.coeff.Value

/-! ## Floats -/

theorem F64.value_ofRat (q : ℚ) : (F64.ofRat q).Value := by
  unfold F64.ofRat
  split
  · rename_i h
    obtain ⟨k, h1, h2⟩ := round53_form q
    exact F64.able_of_form h h1 (lastBit_ge q) h2
  · trivial

theorem F64.value_add (x y : F64) : (GoNum.add x y).Value := by
  cases x <;> cases y
  case fin.fin p q => exact F64.value_ofRat _
  case inf.inf a b =>
    show F64.Value (if a = b then F64.inf a else F64.nan)
    split <;> trivial
  all_goals trivial

theorem F64.mul_negOne {x : F64} (h : x.Value) : GoNum.mul x negOne = GoNum.neg x := by
  cases x with
  | nan => rfl
  | inf a =>
    show (if (-1 : ℚ) = 0 then F64.nan else F64.inf (a != decide ((-1 : ℚ) < 0))) = F64.inf (!a)
    rw [if_neg (by norm_num), decide_eq_true (by norm_num)]
    cases a <;> rfl
  | fin q =>
    show F64.ofRat (q * -1) = F64.fin (-q)
    rw [mul_neg_one]
    exact F64.able_neg h

theorem F64.negOne_mul {x : F64} (h : x.Value) : GoNum.mul negOne x = GoNum.neg x := by
  cases x with
  | nan => rfl
  | inf a =>
    show (if (-1 : ℚ) = 0 then F64.nan else F64.inf (a != decide ((-1 : ℚ) < 0))) = F64.inf (!a)
    rw [if_neg (by norm_num), decide_eq_true (by norm_num)]
    cases a <;> rfl
  | fin q =>
    show F64.ofRat (-1 * q) = F64.fin (-q)
    rw [neg_one_mul]
    exact F64.able_neg h

theorem F64.value_neg {x : F64} (h : x.Value) : (GoNum.neg x).Value := by
  cases x with
  | nan => trivial
  | inf a => trivial
  | fin q => exact F64.able_neg h

theorem f64Laws : CoefLaws F64.Value where
  zero := F64.able_small (k := 0) (by norm_num)
  one := by
    show F64.Able 1
    exact_mod_cast F64.able_small (k := 1) (by norm_num)
  minus_one := by
    show F64.Able (-1)
    exact_mod_cast F64.able_small (k := -1) (by norm_num)
  add x y _ _ := F64.value_add x y
  neg x h := by
    rw [F64.mul_negOne h]
    exact F64.value_neg h
  zero_add x h := by
    cases x with
    | nan => rfl
    | inf a => rfl
    | fin q =>
      show F64.ofRat (0 + q) = _
      rw [zero_add]
      exact h
  add_zero x h := by
    cases x with
    | nan => rfl
    | inf a => rfl
    | fin q =>
      show F64.ofRat (q + 0) = _
      rw [add_zero]
      exact h
  add_comm x y := by
    cases x <;> cases y
    case fin.fin p q =>
      show F64.ofRat (p + q) = F64.ofRat (q + p)
      rw [add_comm]
    case inf.inf a b => cases a <;> cases b <;> rfl
    all_goals rfl
  feq_zero x _ h := by
    cases x with
    | nan => cases h
    | inf a => cases h
    | fin q => exact congrArg _ ((F64.feq_exact q 0).mp h)
  feq_one x _ h := by
    cases x with
    | nan => cases h
    | inf a => cases h
    | fin q => exact congrArg _ ((F64.feq_exact q 1).mp h)
  two := by
    show F64.ofRat ((2 : ℤ) : ℚ) = F64.ofRat (1 + 1)
    norm_num
  neg_one := by
    show F64.ofRat (1 * -1) = _
    rw [one_mul]
    show _ = F64.fin (-1)
    exact_mod_cast F64.able_small (k := -1) (by norm_num)
  neg_zero := by
    show F64.ofRat (0 * -1) = _
    rw [zero_mul]
    exact_mod_cast F64.able_small (k := 0) (by norm_num)

/-- The difference of finite floats, if finite: one rounding. -/
theorem F64.sub_rounds {p q x : ℚ} (hp : F64.Able p) (hq : F64.Able q)
    (h : GoNum.sub (F64.fin p) (F64.fin q) = .fin x) : F64.Able x ∧ |x - (p - q)| ≤ 1 / 2 ^ 53 * |p - q| := by
  change F64.ofRat (p + -q) = _ at h
  refine ⟨?_, ?_⟩
  · have := F64.value_ofRat (p + -q)
    rw [h] at this
    exact this
  · rw [F64.ofRat_val h, sub_eq_add_neg p q]
    exact round53_rel (Or.inr ((dyadics 1074).add_mem (F64.able_grid hp) (F64.able_grid (F64.able_neg hq))))

/-- It is zero for equal numbers only: no underflow to zero. -/
theorem F64.sub_zero_iff {p q : ℚ} (hp : F64.Able p) (hq : F64.Able q) :
    GoNum.sub (F64.fin p) (F64.fin q) = .fin 0 ↔ p = q := by
  constructor
  · intro h
    have := (F64.sub_rounds hp hq h).2
    rw [zero_sub, abs_neg] at this
    have h0 : |p - q| = 0 := by
      have := abs_nonneg (p - q)
      linarith
    exact sub_eq_zero.mp (abs_eq_zero.mp h0)
  · rintro rfl
    rw [F64.sub_exact]
    · rw [sub_self]
    · rw [sub_self]
      exact_mod_cast F64.able_small (k := 0) (by norm_num)

/-! ## Sums and differences -/

section Sums
variable {D : Set (ℕ →₀ ℕ)} {a b : Scalar F64}

private theorem copd_of (ca : a.Canon) (ta : a.TermsIn D) (va : a.NumsValid) (oa : a.Repeats 1) {P : Var F64 → Prop}
    (hP : ∀ v, a.Mentions v → P v) : COpd F64.Value P D a :=
  ⟨good_mentions ca ta hP, va, onceL_iff.mpr oa⟩

/-- C88: `Plus`. -/
theorem plus_coeffs (hD : RearrFree D) (hF : D ⊆ flat) (ca : a.Canon) (cb : b.Canon) (ta : a.TermsIn D)
    (tb : b.TermsIn D) (va : a.NumsValid) (vb : b.NumsValid) (oa : a.Repeats 1) (ob : b.Repeats 1) :
    ∃ r, a.plus b = .ok r ∧ r.Canon ∧ r.TermsIn D ∧ r.NumsValid ∧ r.Repeats 1 ∧
      ∀ d, r.coeffAt d = GoNum.add (a.coeffAt d) (b.coeffAt d) := by
  obtain ⟨r, h1, h2⟩ := Scalar.plus_coef (P := fun _ => True) f64Laws hD hF (copd_of ca ta va oa fun _ _ => trivial)
    (copd_of cb tb vb ob fun _ _ => trivial)
  obtain ⟨cr, tr, -⟩ := good_iff.mp h2.good
  exact ⟨r, h1, cr, tr, h2.nums, onceL_iff.mp h2.once, h2.coef⟩

theorem cdiff_sub {l l' : List (Mono F64)} (h' : NumL F64.Value l') (d : ℕ →₀ ℕ) :
    cdiff l l' d = GoNum.sub (fco d l) (fco d l') := by
  unfold cdiff
  rw [F64.mul_negOne (fco_num f64Laws h')]
  rfl

/-- C88: `Minus`. -/
theorem minus_coeffs (hD : RearrFree D) (hF : D ⊆ flat) (ca : a.Canon) (cb : b.Canon) (ta : a.TermsIn D)
    (tb : b.TermsIn D) (va : a.NumsValid) (vb : b.NumsValid) (oa : a.Repeats 1) (ob : b.Repeats 1) :
    ∃ r, a.minus b = .ok r ∧ r.Canon ∧ r.TermsIn D ∧ r.NumsValid ∧ r.Repeats 1 ∧
      ∀ d, r.coeffAt d = GoNum.sub (a.coeffAt d) (b.coeffAt d) := by
  obtain ⟨r, h1, h2⟩ := Scalar.minus_coef (P := fun _ => True) f64Laws hD hF (copd_of ca ta va oa fun _ _ => trivial)
    (copd_of cb tb vb ob fun _ _ => trivial)
  obtain ⟨cr, tr, -⟩ := good_iff.mp h2.good
  exact ⟨r, h1, cr, tr, h2.nums, onceL_iff.mp h2.once, fun d => (h2.coef d).trans (cdiff_sub vb d)⟩

/-- With finite coefficients, what is stored is the coefficient of the polynomial. -/
theorem coeffAt_exact (fa : a.Floats) (oa : a.Repeats 1) (d : ℕ →₀ ℕ) : a.coeffAt d = .fin (coeff d a.exact.den) := by
  rw [Scalar.exact_vd]
  have key : ∀ l : List (Mono F64), (∀ m ∈ l, m.coeff.IsFloat) → OnceL l →
      fco d l = .fin (coeff d (vden F64.rounding l)) ∧
        ((∀ m ∈ l, m.degs ≠ d) → coeff d (vden F64.rounding l) = 0) := by
    intro l
    induction l with
    | nil => exact fun _ _ => ⟨by simp [fco]; rfl, fun _ => by simp⟩
    | cons m l ih =>
      intro hf ho
      unfold OnceL at ho
      rw [List.map_cons, List.nodup_cons] at ho
      obtain ⟨i1, i2⟩ := ih (fun x hx => hf x (by simp [hx])) ho.2
      rw [fco_cons, vden_cons, coeff_add, vterm, coeff_monomial]
      obtain ⟨q, hq, -⟩ := hf m (by simp)
      by_cases hd : m.degs = d
      · have : ∀ x ∈ l, x.degs ≠ d := fun x hx hxd => ho.1 (List.mem_map.mpr ⟨x, hx, hxd.trans hd.symm⟩)
        rw [if_pos hd, if_pos hd, i2 this, add_zero, hq]
        exact ⟨rfl, fun h => absurd hd (h m (by simp))⟩
      · rw [if_neg hd, if_neg hd, zero_add]
        exact ⟨i1, fun h => i2 fun x hx => h x (by simp [hx])⟩
  exact (key _ fa (onceL_iff.mpr oa)).1

theorem Scalar.Floats.valid (fa : a.Floats) : a.NumsValid := fun m hm => by
  obtain ⟨q, hq, hq'⟩ := fa m hm
  rw [hq]
  exact hq'

theorem coeffAt_valid (fa : a.Floats) (d : ℕ →₀ ℕ) : (a.coeffAt d).Value := fco_num f64Laws fa.valid

theorem floats_of_coeffs (va : a.NumsValid) (oa : a.Repeats 1) (h : ∀ d, ∃ q, a.coeffAt d = .fin q) : a.Floats := by
  intro m hm
  have key : ∀ l : List (Mono F64), OnceL l → m ∈ l → fco m.degs l = m.coeff := by
    intro l
    induction l with
    | nil => intro _ h; cases h
    | cons x l ih =>
      intro ho hm
      unfold OnceL at ho
      rw [List.map_cons, List.nodup_cons] at ho
      rw [fco_cons]
      rcases List.mem_cons.mp hm with rfl | hm
      · rw [if_pos rfl]
      · rw [if_neg (fun hd => ho.1 (List.mem_map.mpr ⟨m, hm, hd.symm⟩)), ih ho.2 hm]
  obtain ⟨q, hq⟩ := h m.degs
  have e := (key _ (onceL_iff.mpr oa) hm).symm.trans hq
  have hv := va m hm
  rw [e] at hv
  exact ⟨q, e, hv⟩

/-- C88: without overflow every coefficient of the difference is the exact difference up to one rounding of the
result, and it is zero only if the coefficients are equal. -/
theorem minus_rounds (hD : RearrFree D) (hF : D ⊆ flat) (ca : a.Canon) (cb : b.Canon) (ta : a.TermsIn D)
    (tb : b.TermsIn D) (fa : a.Floats) (fb : b.Floats) (oa : a.Repeats 1) (ob : b.Repeats 1)
    (hG : ∀ d, |coeff d a.exact.den - coeff d b.exact.den| ≤ 2 ^ 1023) :
    ∃ r, a.minus b = .ok r ∧ r.Floats ∧ ∀ d,
      |coeff d r.exact.den - (coeff d a.exact.den - coeff d b.exact.den)| ≤
        1 / 2 ^ 53 * |coeff d a.exact.den - coeff d b.exact.den| ∧
      (coeff d r.exact.den = 0 ↔ coeff d a.exact.den = coeff d b.exact.den) := by
  obtain ⟨r, h1, -, -, h2, h3, h4⟩ := minus_coeffs hD hF ca cb ta tb fa.valid fb.valid oa ob
  have key : ∀ d, ∃ x, GoNum.sub (F64.fin (coeff d a.exact.den)) (F64.fin (coeff d b.exact.den)) = .fin x ∧
      r.coeffAt d = .fin x := by
    intro d
    obtain ⟨x, hx, -⟩ := rhs_round (Scalar.coeff_able fa oa d) (Scalar.coeff_able fb ob d) (hG d)
    refine ⟨x, hx, ?_⟩
    rw [h4, coeffAt_exact fa oa, coeffAt_exact fb ob, hx]
  have fr := floats_of_coeffs h2 h3 fun d => (key d).imp fun x hx => hx.2
  refine ⟨r, h1, fr, fun d => ?_⟩
  obtain ⟨x, h5, h6⟩ := key d
  rw [coeffAt_exact fr h3] at h6
  rw [F64.fin.inj h6]
  refine ⟨(F64.sub_rounds (Scalar.coeff_able fa oa d) (Scalar.coeff_able fb ob d) h5).2, ?_⟩
  rw [← F64.sub_zero_iff (Scalar.coeff_able fa oa d) (Scalar.coeff_able fb ob d), h5]
  exact ⟨fun h => by rw [h], fun h => F64.fin.inj h⟩

end Sums

/-! ## The linear representations -/

/-- Both sides of `≥` change their signs. -/
def Sense.orient : Sense → F64 → F64
  | .ge, x => GoNum.neg x
  | _, x => x

/-- The coefficient of a variable in the difference of the sides. -/
noncomputable def SCon.rowAt (c : SCon F64) (w : Var F64) : F64 :=
  GoNum.sub (c.lhs.coeffAt (Finsupp.single w.id 1)) (c.rhs.coeffAt (Finsupp.single w.id 1))

/-- The difference of the constants. -/
noncomputable def SCon.boundAt (c : SCon F64) : F64 := GoNum.sub (c.rhs.coeffAt 0) (c.lhs.coeffAt 0)

/-- No difference of coefficients overflows. -/
def SCon.FiniteDiff (c : SCon F64) : Prop := ∀ d, ∃ q, GoNum.sub (c.lhs.coeffAt d) (c.rhs.coeffAt d) = .fin q

section Scalar
variable {c : SCon F64} {ws : List (Var F64)}

theorem linear_diff_coeffs (h : c.LinearFloats) (hne : ws ≠ []) (hok : ∀ w ∈ ws, w.OK ∧ w.BoundsOK)
    (hnd : (ws.map (·.id)).Nodup) (hcov : c.CoveredBy ws) (hG : c.FiniteDiff) :
    ∃ d : Scalar F64, c.lhs.minus c.rhs = .ok d ∧ d.linearCoeff [ws] = .ok (ws.map c.rowAt) := by
  obtain ⟨d, h1, h2⟩ := Scalar.minus_coef (P := c.Mentions) f64Laws rearrFree_degLE_one degLE_one_flat
    (copd_of h.canon.lhs h.terms.lhs h.lfloats.valid h.lonce fun v hv => Or.inl hv)
    (copd_of h.canon.rhs h.terms.rhs h.rfloats.valid h.ronce fun v hv => Or.inr hv)
  obtain ⟨cd, -, md⟩ := good_iff.mp h2.good
  have once : d.Repeats 1 := onceL_iff.mp h2.once
  have e : ∀ x, d.coeffAt x = GoNum.sub (c.lhs.coeffAt x) (c.rhs.coeffAt x) := fun x =>
    (h2.coef x).trans (cdiff_sub h.rfloats.valid x)
  have fd : d.Floats := floats_of_coeffs h2.nums once fun x => by rw [e]; exact hG x
  refine ⟨d, h1, ?_⟩
  rw [linearCoeff_read cd fd once (fun v hv => h.bounds v (md v hv))
    (Scalar.minus_notConst h.canon.lhs h.canon.rhs h1) hne hok hnd (fun v hv => hcov v (md v hv))]
  congr 1
  refine List.map_congr_left fun w _ => ?_
  rw [← coeffAt_exact fd once, e]
  rfl

theorem SCon.rowAt_valid (w : Var F64) : (c.rowAt w).Value := F64.value_add _ _
theorem SCon.boundAt_valid : c.boundAt.Value := F64.value_add _ _

private theorem consts (h : c.LinearFloats) :
    c.rhs.constant = .ok (c.rhs.coeffAt 0) ∧ c.lhs.constant = .ok (c.lhs.coeffAt 0) := by
  rw [coeffAt_exact h.rfloats h.ronce, coeffAt_exact h.lfloats h.lonce]
  exact ⟨constant_read h.canon.rhs h.rfloats h.ronce fun v hv => h.bounds v (Or.inr hv),
    constant_read h.canon.lhs h.lfloats h.lonce fun v hv => h.bounds v (Or.inl hv)⟩

/-- C88: the representation of an inequality, number for number. -/
theorem linearIneq_coeffs (h : c.LinearFloats) (hne : ws ≠ []) (hok : ∀ w ∈ ws, w.OK ∧ w.BoundsOK)
    (hnd : (ws.map (·.id)).Nodup) (hcov : c.CoveredBy ws) (hG : c.FiniteDiff) :
    c.linearIneq [ws] = .ok (ws.map fun w => c.sense.orient (c.rowAt w), c.sense.orient c.boundAt) := by
  obtain ⟨d, h1, h2⟩ := linear_diff_coeffs h hne hok hnd hcov hG
  obtain ⟨r1, r2⟩ := consts h
  unfold SCon.linearIneq
  rw [check_float h.canon, Go.ok_bind, requireLinear_float h, Go.ok_bind, h1, Go.ok_bind, h2, Go.ok_bind, r1,
    Go.ok_bind, r2, Go.ok_bind]
  by_cases hs : c.sense = .ge
  · simp only [if_pos hs]
    rw [hs, List.map_map]
    refine congrArg Except.ok (Prod.ext (List.map_congr_left fun w _ => ?_) rfl)
    exact F64.negOne_mul (SCon.rowAt_valid w)
  · simp only [if_neg hs]
    have : ∀ x, c.sense.orient x = x := by
      intro x
      revert hs
      cases c.sense <;> simp [Sense.orient]
    simp only [this]
    rfl

/-- C88: the representation of an equality. -/
theorem linearEq_coeffs (h : c.LinearFloats) (hs : c.sense = .eq) (hne : ws ≠ [])
    (hok : ∀ w ∈ ws, w.OK ∧ w.BoundsOK) (hnd : (ws.map (·.id)).Nodup) (hcov : c.CoveredBy ws) (hG : c.FiniteDiff) :
    c.linearEq [ws] = .ok (ws.map c.rowAt, c.boundAt) := by
  obtain ⟨d, h1, h2⟩ := linear_diff_coeffs h hne hok hnd hcov hG
  obtain ⟨r1, r2⟩ := consts h
  unfold SCon.linearEq
  rw [check_float h.canon, Go.ok_bind, requireLinear_float h, Go.ok_bind, if_neg (by simp [hs]), h1, Go.ok_bind, h2,
    Go.ok_bind, r1, Go.ok_bind, r2, Go.ok_bind]
  rfl

/-- C88: what the numbers are: within one rounding of the exact differences. -/
theorem rowAt_rounds (h : c.LinearFloats) (hG : c.FiniteDiff) (w : Var F64) :
    ∃ x, c.rowAt w = .fin x ∧ |x - (coeff (Finsupp.single w.id 1) c.lhs.exact.den -
        coeff (Finsupp.single w.id 1) c.rhs.exact.den)| ≤
      1 / 2 ^ 53 * |coeff (Finsupp.single w.id 1) c.lhs.exact.den - coeff (Finsupp.single w.id 1) c.rhs.exact.den| ∧
    (x = 0 ↔ coeff (Finsupp.single w.id 1) c.lhs.exact.den = coeff (Finsupp.single w.id 1) c.rhs.exact.den) := by
  obtain ⟨x, hx⟩ := hG (Finsupp.single w.id 1)
  refine ⟨x, hx, ?_⟩
  rw [coeffAt_exact h.lfloats h.lonce, coeffAt_exact h.rfloats h.ronce] at hx
  have h1 := Scalar.coeff_able h.lfloats h.lonce (Finsupp.single w.id 1)
  have h2 := Scalar.coeff_able h.rfloats h.ronce (Finsupp.single w.id 1)
  refine ⟨(F64.sub_rounds h1 h2 hx).2, ?_⟩
  rw [← F64.sub_zero_iff h1 h2, hx]
  exact ⟨fun h => by rw [h], fun h => F64.fin.inj h⟩

end Scalar

/-! ## Vectors -/

section Vectors
variable {R : Type} [GoNum R] {N : R → Prop} {P : Var R → Prop} {D : Set (ℕ →₀ ℕ)} {n : ℕ}

theorem stable_coef (L : CoefLaws N) (hD : RearrFree D) (hF : D ⊆ flat) {f : (ℕ →₀ ℕ) → R} :
    Stable (CRes N P D f) where
  check _ h := h.good.check
  poly s h := by
    refine ⟨good_toPoly h.good, ?_, ?_, ?_⟩ <;> rw [terms_toPoly]
    exacts [h.nums, h.once, h.coef]
  mono s m h hm := by
    refine ⟨good_toMono h.good hm, ?_, ?_, ?_⟩ <;> rw [terms_toMono hm]
    exacts [h.nums, h.once, h.coef]
  simp _ h := h.simp L hD hF

theorem vec_minus_coef (L : CoefLaws N) (hD : RearrFree D) (hF : D ⊆ flat) {a b : Vec R} (hn : 2 ≤ n)
    {f f' : ℕ → (ℕ →₀ ℕ) → R} (ha : VArr n (fun i => CRes N P D (f i)) a) (hb : VArr n (fun i => CRes N P D (f' i)) b) :
    ∃ d, (Expr.v a).minus (.v b) = .ok (.v d) ∧
      VArr n (fun i => CRes N P D fun x => GoNum.add (f i x) (GoNum.mul (f' i x) negOne)) d := by
  have h := Vec.minus_vec_ok (T := fun i => CRes N P D fun x => GoNum.mul (f' i x) negOne)
    (Q := fun i => CRes N P D fun x => GoNum.add (f i x) (GoNum.mul (f' i x) negOne)) (by omega) ha
    (fun _ _ h => h.good.check) hb (fun _ _ h => h.good.check) (fun i _ => stable_coef L hD hF)
    (fun i _ => stable_coef L hD hF)
    (fun i x _ hx => (Scalar.mulNeg_coef L hD hF hx.opd).mono fun r hr => hr.congr fun d => by
      unfold cneg
      rw [hx.coef])
    (fun i x y _ hx hy => (Scalar.plus_coef L hD hF hx.opd hy.opd).mono fun r hr => hr.congr fun d => by
      unfold csum
      rw [hx.coef, hy.coef])
  obtain ⟨e, h1, h2, -, h3⟩ := h
  obtain ⟨d, rfl⟩ := h3 (by omega)
  exact ⟨d, h1, earr_v_iff.mp h2⟩

end Vectors

variable {c : VCon F64} {n : ℕ} {ws : List (Var F64)}

/-- Some variable has different coefficients on the two sides. -/
def SCon.Varies (c : SCon F64) : Prop := ∃ v : ℕ,
  coeff (Finsupp.single v 1) c.lhs.exact.den ≠ coeff (Finsupp.single v 1) c.rhs.exact.den

/-- The difference that the methods compute: right side minus its constants, left side minus that. -/
theorem VCon.LinearFloats.diff_coeffs (h : c.LinearFloats n) (hG : ∀ i < n, (c.row i).FiniteDiff) :
    ∃ d, c.newLHS = .ok d ∧ (Expr.v d).Canon ∧ (Expr.v d).Shape n 1 ∧
      ∀ i < n, Good (c.Names n) (degLE 1) ((Expr.v d).entryD i 0) ∧ ((Expr.v d).entryD i 0).Floats ∧
        ((Expr.v d).entryD i 0).Repeats 1 ∧ ∀ v : ℕ, ((Expr.v d).entryD i 0).coeffAt (Finsupp.single v 1) =
          GoNum.sub ((c.row i).lhs.coeffAt (Finsupp.single v 1)) ((c.row i).rhs.coeffAt (Finsupp.single v 1)) := by
  obtain ⟨-, k2⟩ := h.constants
  have D1 := rearrFree_degLE_one
  have D2 := degLE_one_flat
  have ar : VArr n (fun i => CRes F64.Value (c.Names n) (degLE 1) fun x => (c.row i).rhs.coeffAt x) c.rhs :=
    varr_of h.rshape fun i hi => by
      have := (h.opds hi).2
      exact ⟨this.good, (h.each i hi).rfloats.valid, onceL_iff.mpr (h.each i hi).ronce, fun _ => rfl⟩
  have al : VArr n (fun i => CRes F64.Value (c.Names n) (degLE 1) fun x => (c.row i).lhs.coeffAt x) c.lhs :=
    varr_of h.lshape fun i hi => by
      have := (h.opds hi).1
      exact ⟨this.good, (h.each i hi).lfloats.valid, onceL_iff.mpr (h.each i hi).lonce, fun _ => rfl⟩
  have ak : VArr n (fun i => CRes F64.Value (c.Names n) (degLE 1)
      fun x => fco x [kToMono (.fin (coeff 0 (c.row i).rhs.exact.den))])
      (.k ((List.range n).map fun i => .fin (coeff 0 (c.row i).rhs.exact.den))) := by
    refine LArr.map_iff.mpr (LArr.map_iff.mpr ((LArr.range n).mono fun i a hi ha => ?_))
    obtain rfl : a = i := by first | exact ha | exact ha.symm
    have hr := h.each a hi
    exact ⟨trivial, numL_single (Scalar.coeff_able hr.rfloats hr.ronce 0), once_single _, fun _ => rfl⟩
  obtain ⟨e, h1, h2⟩ := vec_minus_coef f64Laws D1 D2 h.rows ar ak
  have hr : ∀ i < n, ∀ x, x ≠ 0 → GoNum.add ((c.row i).rhs.coeffAt x)
      (GoNum.mul (fco x [kToMono (.fin (coeff 0 (c.row i).rhs.exact.den))]) negOne) = (c.row i).rhs.coeffAt x := by
    intro i hi x hx
    rw [fco_cons, kToMono_degs, if_neg (Ne.symm hx)]
    show GoNum.add _ (GoNum.mul GoNum.zero negOne) = _
    rw [f64Laws.neg_zero, f64Laws.add_zero _ (coeffAt_valid (h.each i hi).rfloats _)]
  obtain ⟨d, h3, h4⟩ := vec_minus_coef f64Laws D1 D2 h.rows al h2
  have hE : EArr n 1 (fun i _ => CRes F64.Value (c.Names n) (degLE 1) fun x =>
    GoNum.add ((c.row i).lhs.coeffAt x) (GoNum.mul (GoNum.add ((c.row i).rhs.coeffAt x)
      (GoNum.mul (fco x [kToMono (.fin (coeff 0 (c.row i).rhs.exact.den))]) negOne)) negOne)) (.v d) :=
    earr_v_iff.mpr h4
  refine ⟨d, ?_, hE.all fun i j a ha => (good_iff.mp ha.good).1, hE.shape, fun i hi => ?_⟩
  · unfold VCon.newLHS
    rw [k2, Go.ok_bind, h1, Go.ok_bind]
    show (do return ← (← Expr.minus (.v c.lhs) (.v e)).asVec : Go (Vec F64)) = _
    rw [h3]
    rfl
  · have hd := varr_entry h4 hi
    have once : ((Expr.v d).entryD i 0).Repeats 1 := onceL_iff.mp hd.once
    have hx : ∀ x, x ≠ 0 → ((Expr.v d).entryD i 0).coeffAt x =
        GoNum.sub ((c.row i).lhs.coeffAt x) ((c.row i).rhs.coeffAt x) := by
      intro x hx
      refine (hd.coef x).trans ?_
      rw [hr i hi x hx, F64.mul_negOne (coeffAt_valid (h.each i hi).rfloats _)]
      rfl
    refine ⟨hd.good, floats_of_coeffs hd.nums once fun x => ?_, once, fun v => hx _ (coeff_single_ne v)⟩
    by_cases h0 : x = 0
    · have hri := h.each i hi
      obtain ⟨q, hq⟩ := hG i hi 0
      have e1 : GoNum.add ((c.row i).rhs.coeffAt 0)
          (GoNum.mul (fco 0 [kToMono (.fin (coeff 0 (c.row i).rhs.exact.den))]) negOne) = (.fin 0 : F64) := by
        rw [fco_cons, kToMono_degs, if_pos rfl, coeffAt_exact hri.rfloats hri.ronce]
        show GoNum.add (F64.fin _) (GoNum.mul (F64.fin _) negOne) = _
        rw [F64.mul_negOne (show F64.Value (.fin _) from Scalar.coeff_able hri.rfloats hri.ronce 0)]
        have := (F64.sub_zero_iff (Scalar.coeff_able hri.rfloats hri.ronce 0)
          (Scalar.coeff_able hri.rfloats hri.ronce 0)).mpr rfl
        exact this
      refine ⟨coeff 0 (c.row i).lhs.exact.den, ?_⟩
      rw [h0]
      refine (hd.coef 0).trans ?_
      rw [e1, show GoNum.mul (F64.fin 0) negOne = (GoNum.zero : F64) from f64Laws.neg_zero,
        f64Laws.add_zero _ (coeffAt_valid hri.lfloats _)]
      exact coeffAt_exact hri.lfloats hri.lonce 0
    · rw [hx x h0]
      exact hG i hi x

theorem VCon.LinearFloats.core_coeffs (h : c.LinearFloats n) (hne : ws ≠ []) (hok : ∀ w ∈ ws, w.OK ∧ w.BoundsOK)
    (hnd : (ws.map (·.id)).Nodup) (hcov : ∀ i < n, (c.row i).CoveredBy ws) (hG : ∀ i < n, (c.row i).FiniteDiff)
    (hk : ∀ i < n, (c.row i).Varies) :
    ∃ d : Vec F64, c.newLHS = .ok d ∧ d.linearCoeff [ws] = .ok ((List.range n).map fun i => ws.map (c.row i).rowAt) ∧
      c.newRHS = .ok ((List.range n).map fun i => (c.row i).boundAt) := by
  have hn : 0 < n := by have := h.rows; omega
  obtain ⟨d, h1, cd, sd, h2⟩ := h.diff_coeffs hG
  obtain ⟨k1, k2⟩ := h.constants
  refine ⟨d, h1, vec_linearCoeff_map hn cd sd hne fun i hi => ?_, ?_⟩
  · obtain ⟨gd, fd, od, ed⟩ := h2 i hi
    obtain ⟨cx, -, md⟩ := good_iff.mp gd
    have hri := h.each i hi
    rw [linearCoeff_read cx fd od (fun v hv => ?_) (fun m hm hv => ?_) hne hok hnd fun v hv => ?_]
    · congr 1
      refine List.map_congr_left fun w _ => ?_
      rw [← coeffAt_exact fd od, ed]
      rfl
    · obtain ⟨j, hj, hv⟩ := md v hv
      exact (h.each j hj).bounds v hv
    · obtain ⟨v, hv'⟩ := hk i hi
      have e1 := ed v
      have e2 : ((Expr.v d).entryD i 0).coeffAt (Finsupp.single v 1) = .fin 0 := by
        rw [hm]
        show fco _ [m] = _
        rw [fco_cons, if_neg]
        · rfl
        · rw [show m.degs = 0 by simp [Mono.degs, hv]]
          exact (coeff_single_ne v).symm
      rw [e2, coeffAt_exact hri.lfloats hri.lonce, coeffAt_exact hri.rfloats hri.ronce] at e1
      exact hv' ((F64.sub_zero_iff (Scalar.coeff_able hri.lfloats hri.lonce _)
        (Scalar.coeff_able hri.rfloats hri.ronce _)).mp e1.symm)
    · obtain ⟨j, hj, hv⟩ := md v hv
      exact hcov j hj v hv
  · unfold VCon.newRHS
    rw [Vec.len_ok h.canon.left h.lshape hn, Go.ok_bind, if_neg (by omega), k1, k2]
    simp only [Go.ok_bind, List.length_map, List.length_range, ne_eq, not_true_eq_false, or_false,
      if_false, Go.pure_eq, zipWith_map_range]
    refine congrArg Except.ok (List.map_congr_left fun i hi => ?_)
    have hri := h.each i (List.mem_range.mp hi)
    unfold SCon.boundAt
    rw [coeffAt_exact hri.rfloats hri.ronce, coeffAt_exact hri.lfloats hri.lonce]

/-- C88: the representation of a vector inequality, number for number. -/
theorem vec_linearIneq_coeffs (h : c.LinearFloats n) (hs : c.sense ≠ .eq) (hne : ws ≠ [])
    (hok : ∀ w ∈ ws, w.OK ∧ w.BoundsOK) (hnd : (ws.map (·.id)).Nodup) (hcov : ∀ i < n, (c.row i).CoveredBy ws)
    (hG : ∀ i < n, (c.row i).FiniteDiff) (hk : ∀ i < n, (c.row i).Varies) :
    c.linearIneq [ws] = .ok ((List.range n).map fun i => ws.map fun w => c.sense.orient ((c.row i).rowAt w),
      (List.range n).map fun i => c.sense.orient (c.row i).boundAt) := by
  obtain ⟨d, h1, h2, h3⟩ := h.core_coeffs hne hok hnd hcov hG hk
  have k1 : c.check = .ok () := h.canon.check
  unfold VCon.linearIneq
  rw [k1, Go.ok_bind, h.required, Go.ok_bind, if_neg hs, h1, Go.ok_bind, h2, Go.ok_bind, h3, Go.ok_bind]
  by_cases hge : c.sense = .ge
  · simp only [if_pos hge]
    rw [hge, List.map_map, List.map_map]
    refine congrArg Except.ok (Prod.ext (List.map_congr_left fun i _ => ?_) (List.map_congr_left fun i _ => ?_))
    · show ((ws.map (c.row i).rowAt).map fun x => GoNum.mul negOne x) = _
      rw [List.map_map]
      exact List.map_congr_left fun w _ => F64.negOne_mul (SCon.rowAt_valid w)
    · exact F64.negOne_mul SCon.boundAt_valid
  · simp only [if_neg hge]
    have : ∀ x, c.sense.orient x = x := by
      intro x
      revert hge
      cases c.sense <;> simp [Sense.orient]
    simp only [this]
    rfl

/-- C88: the representation of a vector equality. -/
theorem vec_linearEq_coeffs (h : c.LinearFloats n) (hs : c.sense = .eq) (hne : ws ≠ [])
    (hok : ∀ w ∈ ws, w.OK ∧ w.BoundsOK) (hnd : (ws.map (·.id)).Nodup) (hcov : ∀ i < n, (c.row i).CoveredBy ws)
    (hG : ∀ i < n, (c.row i).FiniteDiff) (hk : ∀ i < n, (c.row i).Varies) :
    c.linearEq [ws] = .ok ((List.range n).map fun i => ws.map (c.row i).rowAt,
      (List.range n).map fun i => (c.row i).boundAt) := by
  obtain ⟨d, h1, h2, h3⟩ := h.core_coeffs hne hok hnd hcov hG hk
  have k1 : c.check = .ok () := h.canon.check
  unfold VCon.linearEq
  rw [k1, Go.ok_bind, h.required, Go.ok_bind, if_neg (by simp [hs]), h1, Go.ok_bind, h2, Go.ok_bind, h3]
  rfl

/-! ## Constraints that meet the hypotheses -/

theorem finiteDiff_of {c : SCon F64} (h : c.LinearFloats)
    (hG : NoOverflow 1 (c.lhs.exact.absolute.den + c.rhs.exact.absolute.den)) : c.FiniteDiff := by
  intro d
  rw [coeffAt_exact h.lfloats h.lonce, coeffAt_exact h.rfloats h.ronce]
  have h1 := hG d
  rw [pow_one, coeff_add, coeff_absolute h.lonce, coeff_absolute h.ronce,
    abs_of_nonneg (add_nonneg (abs_nonneg _) (abs_nonneg _))] at h1
  have h2 := abs_sub (coeff d c.lhs.exact.den) (coeff d c.rhs.exact.den)
  have h3 : 0 ≤ |coeff d c.lhs.exact.den| + |coeff d c.rhs.exact.den| := by positivity
  have h4 : |coeff d c.lhs.exact.den| + |coeff d c.rhs.exact.den| ≤
      (1 + 1 / 2 ^ 53) * (|coeff d c.lhs.exact.den| + |coeff d c.rhs.exact.den|) := by nlinarith
  obtain ⟨x, hx, -⟩ := rhs_round (Scalar.coeff_able h.lfloats h.lonce d) (Scalar.coeff_able h.rfloats h.ronce d)
    (h2.trans (h4.trans h1))
  exact ⟨x, hx⟩

theorem f64LinCon_varies : f64LinCon.Varies := by
  refine ⟨1, ?_⟩
  rw [f64LinCon_coeffs.1, f64LinCon_coeffs.2.1]
  norm_num [f64Tenth]

private theorem ws_ok : ∀ w ∈ [f64Var 1], w.OK ∧ w.BoundsOK := fun w hw => by
  rw [List.mem_singleton] at hw
  subst hw
  exact ⟨rfl, f64Var_bounds _⟩

/-- `0.1 x + 5 ≤ x` becomes `(0.1 - 1) x ≤ 0 - 5`. -/
example : f64LinCon.linearIneq [[f64Var 1]] =
    .ok ([GoNum.sub (.fin f64Tenth) (.fin 1)], GoNum.sub (.fin 0) (.fin 5)) := by
  rw [linearIneq_coeffs f64LinCon_floats (by simp) ws_ok (by simp) f64LinCon_covered
    (finiteDiff_of f64LinCon_floats f64LinCon_fits)]
  have h0 : coeff 0 f64LinCon.lhs.exact.den = 5 := by
    rw [Scalar.exact_vd]
    show coeff _ (vden _ [_, _]) = _
    rw [vden_cons, vden_cons, vden_nil, vterm, vterm, Var.degs_one, coeff_add, coeff_add, coeff_monomial,
      coeff_monomial]
    erw [if_neg (show ¬ Finsupp.single (1 : ℕ) 1 = 0 from coeff_single_ne 1), if_pos (by rfl)]
    simp [F64.rounding, F64.val]
  unfold SCon.rowAt SCon.boundAt
  simp only [coeffAt_exact f64LinCon_floats.lfloats f64LinCon_floats.lonce,
    coeffAt_exact f64LinCon_floats.rfloats f64LinCon_floats.ronce, h0, f64LinCon_coeffs.2.2]
  show Except.ok ([GoNum.sub (F64.fin (coeff (Finsupp.single 1 1) _)) (F64.fin (coeff (Finsupp.single 1 1) _))], _) = _
  rw [f64LinCon_coeffs.1, f64LinCon_coeffs.2.1]
  rfl

example : f64LinVCon.linearIneq [[f64Var 1]] =
    .ok ((List.range 2).map fun i => [f64Var 1].map fun w => (Sense.le).orient ((f64LinVCon.row i).rowAt w),
      (List.range 2).map fun i => (Sense.le).orient (f64LinVCon.row i).boundAt) :=
  vec_linearIneq_coeffs f64LinVCon_floats (by decide) (by simp) ws_ok (by simp)
    (fun i hi => by rw [f64LinVCon_row i hi]; exact f64LinCon_covered)
    (fun i hi => by rw [f64LinVCon_row i hi]; exact finiteDiff_of f64LinCon_floats f64LinCon_fits)
    (fun i hi => by rw [f64LinVCon_row i hi]; exact f64LinCon_varies)

/-- `2^1023 x`. -/
def f64Huge : Scalar F64 := .mono ⟨.fin (2 ^ 1023), [1], [f64Var 1]⟩

/-- The largest power of two twice is infinity, and the theorem says so. -/
example : ∃ r, f64Huge.plus f64Huge = .ok r ∧ r.coeffAt (Finsupp.single 1 1) = .inf false := by
  have c1 : f64Huge.Canon := ⟨rfl, by simp, by simp, by intro v hv; fin_cases hv; rfl⟩
  have hd : (⟨.fin (2 ^ 1023), [1], [f64Var 1]⟩ : Mono F64).degs = Finsupp.single 1 1 :=
    Var.degs_one _ _ _
  have t1 : f64Huge.TermsIn (degLE 1) := by
    right
    show (⟨.fin (2 ^ 1023), [1], [f64Var 1]⟩ : Mono F64).degs.sum (fun _ e => e) ≤ 1
    rw [hd, Finsupp.sum_single_index rfl]
  have v1 : f64Huge.NumsValid := fun m hm => by
    obtain rfl := List.mem_singleton.mp hm
    show F64.ofRat (2 ^ 1023) = .fin (2 ^ 1023)
    decide +kernel
  have o1 : f64Huge.Repeats 1 := fun d => List.count_le_length.trans (by simp [f64Huge, Scalar.terms])
  obtain ⟨r, h1, -, -, -, -, h2⟩ := plus_coeffs rearrFree_degLE_one degLE_one_flat c1 c1 t1 t1 v1 v1 o1 o1
  refine ⟨r, h1, ?_⟩
  have h3 : f64Huge.coeffAt (Finsupp.single 1 1) = .fin (2 ^ 1023) := by
    show fco _ [_] = _
    rw [fco_cons, if_pos hd]
  rw [h2, h3]
  decide +kernel

end Verif
