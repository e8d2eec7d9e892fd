import Verif.Props.Round

/-!
# C69: underflow

Products must not underflow in C69.  Here is a condition on the given coefficients alone: they are
multiples of `2^-p`, where `p` is not too large.  Every float of absolute value at least `2^-s` is a
multiple of `2^-(s+52)`.  Sums of such numbers do not underflow, also if they cancel, and neither do
products of `n` of them as long as `n * p ≤ 1074`.
-/

set_option linter.unusedSectionVars false

namespace Verif

open MvPolynomial

/-- The coefficients are multiples of `2^-p`. -/
def Scalar.Grid (p : ℕ) (e : Scalar F64) : Prop := ∀ m ∈ e.terms, ∃ z : ℤ, m.coeff.val = z / 2 ^ p

theorem Scalar.Grid.mono {p q : ℕ} {e : Scalar F64} (h : e.Grid p) (hq : p ≤ q) : e.Grid q :=
  fun m hm => mem_dyadics.mp (dyadics_mono hq (mem_dyadics.mpr (h m hm)))

/-- Products of multiples of `2^-p` and `2^-q` do not underflow if `p + q ≤ 1074`. -/
theorem noUnderflow_of_grid {p q : ℕ} {a b : Scalar F64} (ha : a.Grid p) (hb : b.Grid q) (h : p + q ≤ 1074) :
    NoUnderflow a b := fun m hm r hr => Or.inr
  (mem_dyadics.mp (dyadics_mono h (dyadics_mul (mem_dyadics.mpr (ha m hm)) (mem_dyadics.mpr (hb r hr)))))

/-- Every float of absolute value at least `2^-s` is a multiple of `2^-(s+52)`. -/
theorem float_grid {x : F64} {s : ℕ} (hx : x.IsFloat) (h : (1 : ℚ) / 2 ^ s ≤ |x.val|) :
    ∃ z : ℤ, x.val = z / 2 ^ (s + 52) := by
  obtain ⟨q, rfl, hq⟩ := hx
  change (1 : ℚ) / 2 ^ s ≤ |q| at h
  show ∃ z : ℤ, q = _
  have hq := F64.ofRat_val hq
  have h0 : 0 < |q| := lt_of_lt_of_le (by positivity) h
  have hs : -(s : ℤ) ≤ Int.log 2 |q| := by
    refine (Int.zpow_le_iff_le_log (by norm_num) h0).mp ?_
    rw [zpow_neg, zpow_natCast, ← one_div]
    exact_mod_cast h
  obtain ⟨k, -, hk⟩ := round53_form q
  have hl : Int.log 2 |q| - 52 ≤ lastBit q := le_max_left _ _
  obtain ⟨n, hn⟩ := Int.eq_ofNat_of_zero_le (a := lastBit q + (s + 52 : ℕ)) (by push_cast; omega)
  refine ⟨k * 2 ^ n, ?_⟩
  rw [hk] at hq
  conv_lhs => rw [hq]
  rw [show lastBit q = (n : ℤ) + -((s + 52 : ℕ) : ℤ) by omega, zpow_add₀ (by norm_num), zpow_natCast, zpow_neg,
    zpow_natCast]
  push_cast
  rw [div_eq_mul_inv, mul_assoc]

variable {D D1 D2 D3 : Set (ℕ →₀ ℕ)} {p q : ℕ}

private abbrev tt : Var F64 → Prop := fun _ => True

private theorem finL_grid (hp : p ≤ 1074) {a : Scalar F64} (fa : a.Floats) (ga : a.Grid p) :
    FinL (F64.gridRounding p hp) a.terms := fun m hm => ⟨fa m hm, by
  rw [F64.rounding_val]; exact mem_dyadics.mpr (ga m hm)⟩

private theorem grid_of (hp : p ≤ 1074) {n : ℕ} {f g : MvPolynomial ℕ ℚ} {a : Scalar F64}
    (h : Res (F64.gridRounding p hp) tt D n f g a) : a.Grid p := fun m hm => by
  have := (h.appr.fin m hm).2
  rw [F64.rounding_val] at this
  exact mem_dyadics.mp this

private theorem res_of (hp : p ≤ 1074) {n : ℕ} {f g : MvPolynomial ℕ ℚ} {a : Scalar F64}
    (h : Res (F64.gridRounding p hp) tt D n f g a) : Res F64.rounding tt D n f g a :=
  ⟨h.good, h.tidy, fun m hm => (h.appr.fin m hm).1, h.appr.err, h.appr.le, h.appr.size⟩

/-- Sums stay multiples of `2^-p`. -/
theorem plus_grid (hp : p ≤ 1074) (hD : RearrFree D) {ka kb : ℕ} {a b r : Scalar F64} (ca : a.Canon) (cb : b.Canon)
    (ta : a.TermsIn D) (tb : b.TermsIn D) (fa : a.Floats) (fb : b.Floats) (ha : a.Alike ka) (hb : b.Alike kb)
    (ga : a.Grid p) (gb : b.Grid p)
    (hG : NoOverflow (ka + kb - 1) (a.exact.absolute.den + b.exact.absolute.den)) (hr : a.plus b = .ok r) :
    r.Grid p := by
  rw [Scalar.absolute_ad, Scalar.absolute_ad] at hG
  obtain ⟨r', h1, h2⟩ := Scalar.plus_appr (F := F64.gridRounding p hp) (P := tt) hD
    ⟨good_of ca ta, finL_grid hp fa ga, ha⟩ ⟨good_of cb tb, finL_grid hp fb gb, hb⟩ (fits_of hG)
  rw [hr, Except.ok.injEq] at h1
  exact h1 ▸ grid_of hp h2

/-- Differences stay multiples of `2^-p`. -/
theorem minus_grid (hp : p ≤ 1074) (hD : RearrFree D) {ka kb : ℕ} {a b r : Scalar F64} (ca : a.Canon) (cb : b.Canon)
    (ta : a.TermsIn D) (tb : b.TermsIn D) (fa : a.Floats) (fb : b.Floats) (ha : a.Alike ka) (hb : b.Alike kb)
    (ga : a.Grid p) (gb : b.Grid p)
    (hG : NoOverflow (ka + kb - 1) (a.exact.absolute.den + b.exact.absolute.den)) (hr : a.minus b = .ok r) :
    r.Grid p := by
  rw [Scalar.absolute_ad, Scalar.absolute_ad] at hG
  obtain ⟨r', h1, h2⟩ := Scalar.minus_appr (F := F64.gridRounding p hp) (P := tt) hD
    ⟨good_of ca ta, finL_grid hp fa ga, ha⟩ ⟨good_of cb tb, finL_grid hp fb gb, hb⟩ (fits_of hG)
  rw [hr, Except.ok.injEq] at h1
  exact h1 ▸ grid_of hp h2

/-- `Multiply` without a condition on underflow, and its result is a multiple of `2^-(p+q)`. -/
theorem mul_rounding_grid (hpq : p + q ≤ 1074) (h : ProdIn D1 D2 D3) (hD : RearrFree D3) {ka kb : ℕ}
    {a b : Scalar F64} (ca : a.Canon) (cb : b.Canon) (ta : a.TermsIn D1) (tb : b.TermsIn D2) (fa : a.Floats)
    (fb : b.Floats) (ha : a.Repeats ka) (hb : b.Repeats kb) (ga : a.Grid p) (gb : b.Grid q)
    (hG : NoOverflow (a.mulRoundings ka kb b) (a.exact.absolute.den * b.exact.absolute.den)) :
    ∃ r, a.mul b = .ok r ∧ r.Approx D3 (a.mulRoundings ka kb b) (a.exact.den * b.exact.den)
      (a.exact.absolute.den * b.exact.absolute.den) ∧ r.Grid (p + q) := by
  rw [Scalar.absolute_ad, Scalar.absolute_ad, mulRoundings_eq] at hG ⊢
  rw [Scalar.exact_vd, Scalar.exact_vd]
  obtain ⟨r, h1, h2⟩ := Scalar.mul_appr (F := F64.gridRounding (p + q) hpq) (P := tt) h hD
    ⟨good_of ca ta, finL_grid hpq fa (ga.mono (Nat.le_add_right _ _)), ha⟩
    ⟨good_of cb tb, finL_grid hpq fb (gb.mono (Nat.le_add_left _ _)), hb⟩
    (fun m hm r hr => by
      show F64.rounding.val _ * F64.rounding.val _ ∈ _
      rw [F64.rounding_val, F64.rounding_val]
      exact dyadics_mul (mem_dyadics.mpr (ga m hm)) (mem_dyadics.mpr (gb r hr))) (fits_of hG)
  exact ⟨r, h1, approx_iff.mpr (res_of hpq h2), grid_of hpq h2⟩

private theorem pow_ad_nonneg (a : Scalar F64) (i : ℕ) (d : ℕ →₀ ℕ) : 0 ≤ coeff d (ad F64.rounding a ^ i) := by
  induction i generalizing d with
  | zero => rw [pow_zero, coeff_one]; split <;> simp
  | succ i ih => rw [pow_succ]; exact coeff_mul_nonneg ih (aden_nonneg _) d

/-- `Power` without a condition on underflow. -/
theorem pow_rounding_grid {k : ℕ} {a : Scalar F64} (n : ℕ) (hn : n * p ≤ 1074) (hD : {d | NSum D n d} ⊆ flat)
    (ca : a.Canon) (ta : a.TermsIn D) (fa : a.Floats) (ha : a.Repeats k) (ga : a.Grid p)
    (hG : ∀ i ≤ n, NoOverflow (n * (k + a.terms.length)) (a.exact.absolute.den ^ i)) :
    ∃ r, a.power n = .ok r ∧ r.Approx {d | NSum D n d} (n * (k + a.terms.length)) (a.exact.den ^ n)
      (a.exact.absolute.den ^ n) ∧ r.Grid (n * p) := by
  have hgood : Good tt D a := good_of ca ta
  have key : ∀ i ≤ n, ∀ r, a.power (i : ℕ) = .ok r → r.Grid (i * p) := by
    intro i
    induction i using Nat.strong_induction_on with
    | _ i ih =>
      intro hi r hr
      rcases Nat.eq_zero_or_pos i with rfl | hpos
      · rw [show ((0 : ℕ) : ℤ) = 0 from rfl, Scalar.power_zero hgood.check, Except.ok.injEq] at hr
        subst hr
        intro m hm
        rw [List.mem_singleton.mp hm]
        exact ⟨1, by rw [Nat.zero_mul]; show (1 : ℚ) = _; simp⟩
      · have hip : i * p ≤ 1074 := le_trans (Nat.mul_le_mul_right p hi) hn
        have hpi : p ≤ i * p := Nat.le_mul_of_pos_left p hpos
        rw [Scalar.absolute_ad] at hG
        obtain ⟨r', h1, h2⟩ := Scalar.power_appr (F := F64.gridRounding (i * p) hip) (P := tt) (D := D) (k := k) (a := a)
          ⟨hgood, finL_grid hip fa (ga.mono hpi), ha⟩ i (fun d h => hD (NSum.le h hi))
          (fun j hj x hx m hm y hy => by
            have h3 := ih j hj (by omega) x hx m hm
            show F64.rounding.val _ * F64.rounding.val _ ∈ _
            rw [F64.rounding_val, F64.rounding_val]
            refine dyadics_mono ?_ (dyadics_mul (mem_dyadics.mpr h3) (mem_dyadics.mpr (ga y hy)))
            calc j * p + p = (j + 1) * p := by rw [add_mul, one_mul]
              _ ≤ i * p := Nat.mul_le_mul_right p hj)
          (fun j hj d => small_le (F := F64.rounding) (Nat.mul_le_mul_right _ hi) (pow_ad_nonneg a j d) (le_refl _)
            (fits_of (hG j (by omega)) d))
        rw [hr, Except.ok.injEq] at h1
        exact h1 ▸ grid_of hip h2
  obtain ⟨r, h1, h2⟩ := pow_rounding n hD ca ta fa ha
    (fun i hi r hr => noUnderflow_of_grid (key i (by omega) r hr) ga (by
      calc i * p + p = (i + 1) * p := by rw [add_mul, one_mul]
        _ ≤ n * p := Nat.mul_le_mul_right p hi
        _ ≤ 1074 := hn)) hG
  exact ⟨r, h1, h2, key n (le_refl _) r h1⟩

/-- The hypotheses are met: `(0.1 x + 5)^2`, where `0.1` is a multiple of `2^-55`. -/
example : ∃ r, f64Lin.power (2 : ℕ) = .ok r ∧ r.Approx {d | NSum (degLE 1) 2 d} 6 (f64Lin.exact.den ^ 2)
    (f64Lin.exact.absolute.den ^ 2) ∧ r.Grid (2 * 55) :=
  pow_rounding_grid 2 (by norm_num) ((nsum_degLE 1 2).trans degLE_two_flat) f64Lin_canon f64Lin_terms f64Lin_floats
    f64Lin_repeats (by
      intro m hm
      fin_cases hm
      · exact ⟨3602879701896397, by show f64Tenth = _; unfold f64Tenth; norm_num⟩
      · exact ⟨5 * 2 ^ 55, by show (5 : ℚ) = _; norm_num⟩)
    fun i hi => f64Lin_fits_pow (by show 2 * (1 + 2) ≤ 2 ^ 52; norm_num) i hi

end Verif
