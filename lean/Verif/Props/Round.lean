import Verif.Lemmas.RoundPow
import Verif.Lemmas.RoundF64
import Verif.Props.Float

/-!
# C69: rounding errors of `float64` arithmetic stay within the standard bound

C58 is about coefficients of few bits, for which nothing is rounded.  Here the coefficients are any finite
floats.  Every coefficient of the result of `Plus`, `Minus`, `Multiply`, `Power` and `AsSimplified` differs
from the coefficient of the exact result by at most `((1 + 2^-53)^n - 1)` times the same coefficient
computed from the absolute values, where `n` is the number of roundings.  The conditions: the exponent
vectors are from a family without rearrangements, as in C01 to C04, nothing overflows, and products do
not underflow.  An error relative to the exact result itself is not bounded (cancellation).
-/

set_option linter.unusedSectionVars false

namespace Verif

open MvPolynomial

/-! ## Specification -/

/-- The same term with the absolute value of the coefficient. -/
def Mono.absolute (m : Mono ℚ) : Mono ℚ := { m with coeff := |m.coeff| }

/-- The same expression with the absolute values of the coefficients. -/
def Scalar.absolute : Scalar ℚ → Scalar ℚ
  | .k c => .k |c|
  | .var v => .var v
  | .mono m => .mono m.absolute
  | .poly p => .poly ⟨p.monos.map Mono.absolute⟩

/-- A finite `float64`: rounding does not change it. -/
def F64.IsFloat (x : F64) : Prop := ∃ q, x = .fin q ∧ F64.ofRat q = .fin q

/-- The coefficients are finite floats. -/
def Scalar.Floats (e : Scalar F64) : Prop := ∀ m ∈ e.terms, m.coeff.IsFloat

/-- At most `k` terms have the same variables with the same exponents, written in the same order. -/
def Scalar.Alike (k : ℕ) (e : Scalar F64) : Prop :=
  ∀ x, (e.terms.map fun m => (m.degs, m.exps)).count x ≤ k

/-- At most `k` terms have the same exponent vector. -/
def Scalar.Repeats (k : ℕ) (e : Scalar F64) : Prop := ∀ d, (e.terms.map fun m => m.degs).count d ≤ k

/-- `n` roundings of numbers of the size of the coefficients of `g` do not overflow. -/
def NoOverflow (n : ℕ) (g : MvPolynomial ℕ ℚ) : Prop :=
  ∀ d, (1 + 1 / 2 ^ 53) ^ n * |coeff d g| ≤ (2 : ℚ) ^ 1023

/-- The products of coefficients do not underflow: they are at least `2^-1022`, or multiples of the least
positive float. -/
def NoUnderflow (a b : Scalar F64) : Prop := ∀ m ∈ a.terms, ∀ r ∈ b.terms,
  (1 : ℚ) / 2 ^ 1022 ≤ |m.coeff.val * r.coeff.val| ∨ ∃ k : ℤ, m.coeff.val * r.coeff.val = k / 2 ^ 1074

/-- `e` is a well-formed expression with exponent vectors in `D`, with finite coefficients, no two terms
alike.  Its coefficients are those of `f` up to `n` roundings, where `g` bounds the absolute values. -/
structure Scalar.Approx (D : Set (ℕ →₀ ℕ)) (n : ℕ) (f g : MvPolynomial ℕ ℚ) (e : Scalar F64) : Prop where
  canon : e.Canon
  terms : e.TermsIn D
  floats : e.Floats
  alike : e.Alike 1
  err : ∀ d, |coeff d e.exact.den - coeff d f| ≤ ((1 + 1 / 2 ^ 53) ^ n - 1) * coeff d g
  le : ∀ d, |coeff d f| ≤ coeff d g
  size : ∀ d, coeff d e.exact.absolute.den ≤ (1 + 1 / 2 ^ 53) ^ n * coeff d g

/-- The number of roundings of a product, where at most `ka` and `kb` terms have one exponent vector. -/
def Scalar.mulRoundings (ka kb : ℕ) : Scalar F64 → Scalar F64 → ℕ
  | .poly _, .poly q => ka + q.monos.length
  | _, _ => max ka kb

/-! ## Bridge -/

theorem Mono.exact_degs (m : Mono F64) : m.exact.degs = m.degs := by
  unfold Mono.degs Mono.exact
  simp only [List.zip_map_left, List.map_map]
  rfl

theorem Mono.absolute_degs (m : Mono ℚ) : m.absolute.degs = m.degs := rfl

theorem Mono.exact_den (m : Mono F64) : m.exact.den = vterm F64.rounding m := by
  unfold Mono.den vterm
  rw [Mono.exact_degs]
  congr 1

theorem Mono.absolute_den (m : Mono F64) : m.exact.absolute.den = aterm F64.rounding m := by
  unfold Mono.den aterm
  rw [Mono.absolute_degs, Mono.exact_degs]
  congr 1

theorem Scalar.exact_vd (e : Scalar F64) : e.exact.den = vd F64.rounding e := by
  cases e with
  | k c =>
    rw [show vd F64.rounding (.k c) = _ from vden_single _, show (kToMono c).degs = 0 from rfl]
    cases c <;> rfl
  | var v =>
    rw [show vd F64.rounding (.var v) = _ from vden_single _, Var.toMono, Var.degs_one]
    rfl
  | mono m => rw [show vd F64.rounding (.mono m) = vterm F64.rounding m from by simp [vd, Scalar.terms], ← Mono.exact_den]; rfl
  | poly p =>
    show (List.map Mono.den (p.monos.map Mono.exact)).sum = (p.monos.map (vterm F64.rounding)).sum
    rw [List.map_map]
    congr 1
    exact List.map_congr_left fun m _ => m.exact_den

theorem Scalar.absolute_ad (e : Scalar F64) : e.exact.absolute.den = ad F64.rounding e := by
  cases e with
  | k c =>
    rw [show ad F64.rounding (.k c) = _ from aden_single _, show (kToMono c).degs = 0 from rfl]
    cases c <;> rfl
  | var v =>
    rw [show ad F64.rounding (.var v) = _ from aden_single _, Var.toMono, Var.degs_one]
    show X v.id = monomial _ |(1 : ℚ)|
    rw [abs_one]; rfl
  | mono m => rw [show ad F64.rounding (.mono m) = aterm F64.rounding m from by simp [ad, Scalar.terms], ← Mono.absolute_den]; rfl
  | poly p =>
    show (List.map Mono.den ((p.monos.map Mono.exact).map Mono.absolute)).sum = (p.monos.map (aterm F64.rounding)).sum
    rw [List.map_map, List.map_map]
    congr 1
    exact List.map_congr_left fun m _ => m.absolute_den

theorem F64.rounding_val (x : F64) : F64.rounding.val x = x.val := by cases x <;> rfl

theorem approx_iff {D : Set (ℕ →₀ ℕ)} {n : ℕ} {f g : MvPolynomial ℕ ℚ} {e : Scalar F64} :
    e.Approx D n f g ↔ Res F64.rounding (fun _ => True) D n f g e := by
  constructor
  · intro h
    exact ⟨good_of h.canon h.terms, keysLe_one.mp h.alike,
      ⟨h.floats, by have := h.err; rwa [Scalar.exact_vd] at this, h.le, by have := h.size; rwa [Scalar.absolute_ad] at this⟩⟩
  · intro h
    obtain ⟨h1, h2, -⟩ := good_iff.mp h.good
    exact ⟨h1, h2, h.appr.fin, h.tidy.keysLe, by rw [Scalar.exact_vd]; exact h.appr.err, h.appr.le,
      by rw [Scalar.absolute_ad]; exact h.appr.size⟩

theorem fits_of {n : ℕ} {g : MvPolynomial ℕ ℚ} (h : NoOverflow n g) : Fits F64.rounding n g := by
  intro d
  show |(1 + 1 / 2 ^ 53) ^ n * coeff d g| ≤ (2 : ℚ) ^ 1023
  rw [abs_mul, abs_of_nonneg (by positivity)]
  exact h d

theorem normalProds_of {a b : Scalar F64} (h : NoUnderflow a b) : NormalProds F64.rounding a.terms b.terms := by
  intro m hm r hr
  rw [F64.rounding_val, F64.rounding_val]
  exact h m hm r hr

theorem opd_of {D : Set (ℕ →₀ ℕ)} {k : ℕ} {e : Scalar F64} (h : e.Canon) (ht : e.TermsIn D) (hf : e.Floats)
    (hk : e.Alike k) : Opd F64.rounding (fun _ => True) D k e := ⟨good_of h ht, hf, hk⟩

theorem dopd_of {D : Set (ℕ →₀ ℕ)} {k : ℕ} {e : Scalar F64} (h : e.Canon) (ht : e.TermsIn D) (hf : e.Floats)
    (hk : e.Repeats k) : DOpd F64.rounding (fun _ => True) D k e := ⟨good_of h ht, hf, hk⟩

theorem mulRoundings_eq (ka kb : ℕ) (a b : Scalar F64) : a.mulRoundings ka kb b = mulRounds ka kb a b := by
  cases a <;> cases b <;> rfl

/-! ## One operation on given operands -/

variable {D D1 D2 D3 : Set (ℕ →₀ ℕ)}

/-- `AsSimplified`: a coefficient that is the sum of `k + 1` terms is rounded `k` times. -/
theorem simplify_rounding (hD : RearrFree D) {k : ℕ} {a : Scalar F64} (ca : a.Canon) (ta : a.TermsIn D)
    (fa : a.Floats) (ka : a.Alike (k + 1)) (hG : NoOverflow k a.exact.absolute.den) :
    ∃ r, a.asSimplified = .ok r ∧ r.Approx D k a.exact.den a.exact.absolute.den := by
  have ha := opd_of ca ta fa ka
  rw [Scalar.absolute_ad] at hG ⊢
  rw [Scalar.exact_vd]
  have hG := fits_of hG
  have key : Go.Ok a.asSimplified (Res F64.rounding (fun _ => True) D k (vd F64.rounding a) (ad F64.rounding a)) := by
    have small : ∀ s : Scalar F64, Res F64.rounding (fun _ => True) D 0 (vd F64.rounding a) (ad F64.rounding a) s →
        Go.Ok s.asSimplified (Res F64.rounding (fun _ => True) D k (vd F64.rounding a) (ad F64.rounding a)) :=
      fun s hs => (hs.weaken (Nat.zero_le k)).simp hD hG
    cases a with
    | k c => exact small _ ⟨ha.good, tidy_single _, appr_self ha.fin⟩
    | var v => exact small _ ⟨ha.good, tidy_single _, appr_self ha.fin⟩
    | mono m => exact small _ ⟨ha.good, tidy_single _, appr_self ha.fin⟩
    | poly p => exact Poly.asSimplified_self hD ha.good.1 ha.fin ha.good.2 ha.keys hG
  obtain ⟨r, h1, h2⟩ := key
  exact ⟨r, h1, approx_iff.mpr h2⟩

/-- `Plus`. -/
theorem plus_rounding (hD : RearrFree D) {ka kb : ℕ} {a b : Scalar F64} (ca : a.Canon) (cb : b.Canon)
    (ta : a.TermsIn D) (tb : b.TermsIn D) (fa : a.Floats) (fb : b.Floats) (ha : a.Alike ka) (hb : b.Alike kb)
    (hG : NoOverflow (ka + kb - 1) (a.exact.absolute.den + b.exact.absolute.den)) :
    ∃ r, a.plus b = .ok r ∧ r.Approx D (ka + kb - 1) (a.exact.den + b.exact.den)
      (a.exact.absolute.den + b.exact.absolute.den) := by
  rw [Scalar.absolute_ad, Scalar.absolute_ad] at hG ⊢
  rw [Scalar.exact_vd, Scalar.exact_vd]
  obtain ⟨r, h1, h2⟩ := Scalar.plus_appr hD (opd_of ca ta fa ha) (opd_of cb tb fb hb) (fits_of hG)
  exact ⟨r, h1, approx_iff.mpr h2⟩

/-- `Minus`. -/
theorem minus_rounding (hD : RearrFree D) {ka kb : ℕ} {a b : Scalar F64} (ca : a.Canon) (cb : b.Canon)
    (ta : a.TermsIn D) (tb : b.TermsIn D) (fa : a.Floats) (fb : b.Floats) (ha : a.Alike ka) (hb : b.Alike kb)
    (hG : NoOverflow (ka + kb - 1) (a.exact.absolute.den + b.exact.absolute.den)) :
    ∃ r, a.minus b = .ok r ∧ r.Approx D (ka + kb - 1) (a.exact.den - b.exact.den)
      (a.exact.absolute.den + b.exact.absolute.den) := by
  rw [Scalar.absolute_ad, Scalar.absolute_ad] at hG ⊢
  rw [Scalar.exact_vd, Scalar.exact_vd]
  obtain ⟨r, h1, h2⟩ := Scalar.minus_appr hD (opd_of ca ta fa ha) (opd_of cb tb fb hb) (fits_of hG)
  exact ⟨r, h1, approx_iff.mpr h2⟩

/-- `Multiply`. -/
theorem mul_rounding (h : ProdIn D1 D2 D3) (hD : RearrFree D3) {ka kb : ℕ} {a b : Scalar F64} (ca : a.Canon)
    (cb : b.Canon) (ta : a.TermsIn D1) (tb : b.TermsIn D2) (fa : a.Floats) (fb : b.Floats) (ha : a.Repeats ka)
    (hb : b.Repeats kb) (hN : NoUnderflow a b)
    (hG : NoOverflow (a.mulRoundings ka kb b) (a.exact.absolute.den * b.exact.absolute.den)) :
    ∃ r, a.mul b = .ok r ∧ r.Approx D3 (a.mulRoundings ka kb b) (a.exact.den * b.exact.den)
      (a.exact.absolute.den * b.exact.absolute.den) := by
  rw [Scalar.absolute_ad, Scalar.absolute_ad, mulRoundings_eq] at hG ⊢
  rw [Scalar.exact_vd, Scalar.exact_vd]
  obtain ⟨r, h1, h2⟩ := Scalar.mul_appr h hD (dopd_of ca ta fa ha) (dopd_of cb tb fb hb) (normalProds_of hN)
    (fits_of hG)
  exact ⟨r, h1, approx_iff.mpr h2⟩

/-- `Power`, on families whose `n`-fold products are flat (all exponents of a term are equal): at most
`k + t` roundings for each of the `n` products, where `t` is the number of terms. -/
theorem pow_rounding {k : ℕ} {a : Scalar F64} (n : ℕ) (hD : {d | NSum D n d} ⊆ flat) (ca : a.Canon)
    (ta : a.TermsIn D) (fa : a.Floats) (ha : a.Repeats k)
    (hN : ∀ i < n, ∀ r, a.power i = .ok r → NoUnderflow r a)
    (hG : ∀ i ≤ n, NoOverflow (n * (k + a.terms.length)) (a.exact.absolute.den ^ i)) :
    ∃ r, a.power n = .ok r ∧ r.Approx {d | NSum D n d} (n * (k + a.terms.length)) (a.exact.den ^ n)
      (a.exact.absolute.den ^ n) := by
  rw [Scalar.absolute_ad] at hG ⊢
  rw [Scalar.exact_vd]
  obtain ⟨r, h1, h2⟩ := Scalar.power_appr (dopd_of ca ta fa ha) n hD
    (fun i hi r hr => normalProds_of (hN i hi r hr)) fun i hi => fits_of (hG i hi)
  exact ⟨r, h1, approx_iff.mpr h2⟩

/-! ## Composition -/

/-- An expression stands for itself. -/
theorem approx_self {a : Scalar F64} (ca : a.Canon) (ta : a.TermsIn D) (fa : a.Floats) (ha : a.Alike 1) :
    a.Approx D 0 a.exact.den a.exact.absolute.den := by
  rw [Scalar.absolute_ad, Scalar.exact_vd]
  exact approx_iff.mpr (opd_of ca ta fa ha).res

theorem Scalar.Approx.weaken {n k : ℕ} {f g : MvPolynomial ℕ ℚ} {a : Scalar F64} (h : a.Approx D n f g)
    (hk : n ≤ k) : a.Approx D k f g := approx_iff.mpr ((approx_iff.mp h).weaken hk)

/-- One more rounding for a sum of approximations. -/
theorem approx_plus (hD : RearrFree D) {n : ℕ} {f1 g1 f2 g2 : MvPolynomial ℕ ℚ} {a b : Scalar F64}
    (ha : a.Approx D n f1 g1) (hb : b.Approx D n f2 g2) (hG : NoOverflow (n + 1) (g1 + g2)) :
    ∃ r, a.plus b = .ok r ∧ r.Approx D (n + 1) (f1 + f2) (g1 + g2) := by
  obtain ⟨r, h1, h2⟩ := (approx_iff.mp ha).plus hD (approx_iff.mp hb) (fits_of hG)
  exact ⟨r, h1, approx_iff.mpr h2⟩

/-- One more rounding for a difference of approximations. -/
theorem approx_minus (hD : RearrFree D) {n : ℕ} {f1 g1 f2 g2 : MvPolynomial ℕ ℚ} {a b : Scalar F64}
    (ha : a.Approx D n f1 g1) (hb : b.Approx D n f2 g2) (hG : NoOverflow (n + 1) (g1 + g2)) :
    ∃ r, a.minus b = .ok r ∧ r.Approx D (n + 1) (f1 - f2) (g1 + g2) := by
  obtain ⟨r, h1, h2⟩ := (approx_iff.mp ha).minus hD (approx_iff.mp hb) (fits_of hG)
  exact ⟨r, h1, approx_iff.mpr h2⟩

/-- A product of approximations: one rounding, and for two polynomials one more for each term of the
second. -/
theorem approx_mul (h : ProdIn D1 D2 D3) (hD : RearrFree D3) (hD1 : D1 ⊆ flat) (hD2 : D2 ⊆ flat) {n n' : ℕ}
    {f1 g1 f2 g2 : MvPolynomial ℕ ℚ} {a b : Scalar F64} (ha : a.Approx D1 n f1 g1) (hb : b.Approx D2 n' f2 g2)
    (hN : NoUnderflow a b) (hG : NoOverflow (n + n' + a.mulRoundings 1 1 b) (g1 * g2)) :
    ∃ r, a.mul b = .ok r ∧ r.Approx D3 (n + n' + a.mulRoundings 1 1 b) (f1 * f2) (g1 * g2) := by
  rw [mulRoundings_eq] at hG ⊢
  obtain ⟨r, h1, h2⟩ := (approx_iff.mp ha).mul h hD hD1 hD2 (approx_iff.mp hb) (normalProds_of hN) (fits_of hG)
  exact ⟨r, h1, approx_iff.mpr h2⟩

/-- `AsSimplified` of an approximation rounds nothing. -/
theorem approx_simplify (hD : RearrFree D) {n : ℕ} {f g : MvPolynomial ℕ ℚ} {a : Scalar F64}
    (ha : a.Approx D n f g) (hG : NoOverflow n g) : ∃ r, a.asSimplified = .ok r ∧ r.Approx D n f g := by
  obtain ⟨r, h1, h2⟩ := (approx_iff.mp ha).simp hD (fits_of hG)
  exact ⟨r, h1, approx_iff.mpr h2⟩

/-- On flat families approximations have no two terms with one exponent vector. -/
theorem approx_repeats (hD : D ⊆ flat) {n : ℕ} {f g : MvPolynomial ℕ ℚ} {a : Scalar F64}
    (ha : a.Approx D n f g) : a.Repeats 1 := ((approx_iff.mp ha).dopd hD).degs

/-! ## What the bound means -/

/-- The exact values: at every point, the error is at most the same factor times the value of the absolute
coefficients at the absolute point. -/
theorem approx_value {n : ℕ} {f g : MvPolynomial ℕ ℚ} {a : Scalar F64} (h : a.Approx D n f g) (ρ : ℕ → ℚ) :
    |a.exact.value ρ - eval ρ f| ≤ ((1 + 1 / 2 ^ 53) ^ n - 1) * eval (fun i => |ρ i|) g := by
  unfold Scalar.value
  rw [← map_sub]
  refine eval_abs_le ?_ (fun d => (abs_nonneg _).trans (h.le d)) (fun d => ?_) ρ
  · exact sub_nonneg.mpr (one_le_pow₀ (by norm_num))
  · rw [coeff_sub]; exact h.err d

/-- Up to `2^52` roundings the factor is at most `n * 2^-52`. -/
theorem roundings_bound {n : ℕ} (hn : n ≤ 2 ^ 52) : ((1 + 1 / 2 ^ 53) ^ n - 1 : ℚ) ≤ n / 2 ^ 52 := by
  have key : ∀ m : ℕ, m ≤ 2 ^ 52 → ((1 + 1 / 2 ^ 53) ^ m : ℚ) ≤ 1 + m / 2 ^ 52 := by
    intro m
    induction m with
    | zero => simp
    | succ m ih =>
      intro hm
      have h1 := ih (by omega)
      have h2 : (m : ℚ) ≤ 2 ^ 52 := by exact_mod_cast (by omega : m ≤ 2 ^ 52)
      rw [pow_succ]
      push_cast
      have h3 : ((1 + 1 / 2 ^ 53) ^ m * (1 + 1 / 2 ^ 53) : ℚ) ≤ (1 + m / 2 ^ 52) * (1 + 1 / 2 ^ 53) :=
        mul_le_mul_of_nonneg_right h1 (by norm_num)
      refine h3.trans ?_
      have h4 : (m : ℚ) / 2 ^ 52 ≤ 1 := by rw [div_le_one (by norm_num)]; exact h2
      have h5 : (1 + (m : ℚ) / 2 ^ 52) * (1 + 1 / 2 ^ 53) = 1 + m / 2 ^ 52 + (1 + m / 2 ^ 52) / 2 ^ 53 := by ring
      rw [h5, add_div]
      have h6 : (1 + (m : ℚ) / 2 ^ 52) / 2 ^ 53 ≤ (1 + 1) / 2 ^ 53 := by
        exact div_le_div_of_nonneg_right (by linarith) (by norm_num)
      have h7 : ((1 + 1) / 2 ^ 53 : ℚ) = 1 / 2 ^ 52 := by norm_num
      linarith
  have := key n hn
  linarith

/-! ## Overflow -/

/-- The value at `(1, 1, ...)` of the absolute coefficients is their sum. -/
theorem absolute_eval (e : Scalar ℚ) : eval (fun _ => 1) e.absolute.den = e.absSum := by
  have hm : ∀ m : Mono ℚ, eval (fun _ => (1 : ℚ)) m.absolute.den = |m.coeff| := by
    intro m
    unfold Mono.den Mono.absolute
    simp [eval_monomial]
  cases e with
  | k c => simp [Scalar.absolute, Scalar.den, Scalar.absSum, Scalar.coeffs]
  | var v => simp [Scalar.absolute, Scalar.den, Scalar.absSum, Scalar.coeffs]
  | mono m => simp [Scalar.absolute, Scalar.den, Scalar.absSum, Scalar.coeffs, hm]
  | poly p =>
    simp only [Scalar.absolute, Scalar.den, Poly.den, Scalar.absSum, Scalar.coeffs, List.map_map, map_list_sum]
    congr 1
    exact List.map_congr_left fun m _ => hm m

theorem absolute_coeff_nonneg (e : Scalar F64) (d : ℕ →₀ ℕ) : 0 ≤ coeff d e.exact.absolute.den := by
  rw [Scalar.absolute_ad]; exact aden_nonneg _ d

/-- A simple way to exclude overflow: the absolute values of the coefficients add up to at most `2^1022`. -/
theorem noOverflow_of_sum {n : ℕ} {g : MvPolynomial ℕ ℚ} (hg : ∀ d, 0 ≤ coeff d g) (hn : n ≤ 2 ^ 52)
    (h : eval (fun _ => 1) g ≤ (2 : ℚ) ^ 1022) : NoOverflow n g := by
  classical
  intro d
  have h1 : |coeff d g| ≤ eval (fun _ => 1) g := by
    rw [abs_of_nonneg (hg d), eval_eq]
    simp only [one_pow, Finset.prod_const_one, mul_one]
    by_cases hd : d ∈ g.support
    · exact Finset.single_le_sum (fun x _ => hg x) hd
    · rw [notMem_support_iff.mp hd]
      exact Finset.sum_nonneg fun x _ => hg x
  have h2 : ((1 + 1 / 2 ^ 53) ^ n : ℚ) ≤ 2 := by
    have h3 := roundings_bound hn
    have h4 : (n : ℚ) / 2 ^ 52 ≤ 1 := by
      rw [div_le_one (by norm_num)]; exact_mod_cast hn
    linarith
  calc (1 + 1 / 2 ^ 53) ^ n * |coeff d g| ≤ 2 * 2 ^ 1022 :=
        mul_le_mul h2 (h1.trans h) (abs_nonneg _) (by norm_num)
    _ = 2 ^ 1023 := by rw [pow_succ (2 : ℚ) 1022, mul_comm]

/-! ## The hypotheses are met -/

/-- All coefficients are floats. -/
def floatCheck (a : Scalar F64) : Bool :=
  a.terms.all fun m => match m.coeff with
    | .fin q => match F64.ofRat q with
      | .fin p => decide (p = q)
      | _ => false
    | _ => false

theorem floatCheck_spec {a : Scalar F64} (h : floatCheck a = true) : a.Floats := by
  intro m hm
  have := List.all_eq_true.mp h m hm
  split at this
  · rename_i q hq
    refine ⟨q, hq, ?_⟩
    split at this
    · rename_i p hp
      rw [hp, of_decide_eq_true this]
    · cases this
  · cases this

/-- The float nearest to one tenth. -/
def f64Tenth : ℚ := 3602879701896397 / 36028797018963968

/-- `0.1 x + 5`. -/
def f64Lin : Scalar F64 := .poly ⟨[⟨.fin f64Tenth, [1], [f64Var 1]⟩, ⟨.fin 5, [], []⟩]⟩

theorem f64Lin_degs : f64Lin.terms.map Mono.degs = [Finsupp.single 1 1, 0] := by
  show [Mono.degs ⟨.fin f64Tenth, [1], [f64Var 1]⟩, 0] = _
  rw [Var.degs_one]; rfl

theorem f64Lin_canon : f64Lin.Canon := by
  refine ⟨by simp, fun m hm => ?_⟩
  fin_cases hm
  · exact ⟨rfl, by simp, by simp, by intro v hv; fin_cases hv; rfl⟩
  · exact ⟨rfl, by simp, by simp, by simp⟩

theorem f64Lin_terms : f64Lin.TermsIn (degLE 1) := by
  intro m hm
  fin_cases hm
  · right
    show _ ∈ degLE 1
    rw [Var.degs_one]
    show (Finsupp.single (f64Var 1).id 1).sum (fun _ e => e) ≤ 1
    rw [Finsupp.sum_single_index rfl]
  · exact Or.inl rfl

theorem f64Lin_floats : f64Lin.Floats := floatCheck_spec (by decide +kernel)

theorem f64Lin_repeats : f64Lin.Repeats 1 := by
  intro d
  refine List.nodup_iff_count_le_one.mp ?_ d
  rw [f64Lin_degs]
  simp

theorem f64Lin_alike : f64Lin.Alike 1 := DegsLe.keys f64Lin_repeats

theorem f64Lin_sum : eval (fun _ => 1) f64Lin.exact.absolute.den ≤ 6 := by
  rw [absolute_eval]
  simp only [Scalar.absSum, f64Lin, Scalar.exact, Scalar.coeffs, Mono.exact, F64.val, List.map_cons,
    List.map_nil, List.sum_cons, List.sum_nil, f64Tenth]
  norm_num [abs_of_pos]

theorem six_le : ∀ i : ℕ, i ≤ 2 → (6 : ℚ) ^ i + 6 ^ i ≤ 2 ^ 1022 := by
  intro i hi
  have h : (2 : ℚ) ^ 7 ≤ 2 ^ 1022 := pow_le_pow_right₀ (by norm_num) (by norm_num)
  refine le_trans ?_ h
  obtain rfl | rfl | rfl : i = 0 ∨ i = 1 ∨ i = 2 := by omega
  all_goals norm_num

theorem f64Lin_fits : NoOverflow 1 (f64Lin.exact.absolute.den + f64Lin.exact.absolute.den) := by
  refine noOverflow_of_sum (coeff_add_nonneg (absolute_coeff_nonneg _) (absolute_coeff_nonneg _)) (by norm_num) ?_
  rw [map_add]
  have h := f64Lin_sum
  exact (add_le_add h h).trans (by simpa using six_le 1 (by norm_num))

example : ∃ r, f64Lin.plus f64Lin = .ok r ∧ r.Approx (degLE 1) 1 (f64Lin.exact.den + f64Lin.exact.den)
    (f64Lin.exact.absolute.den + f64Lin.exact.absolute.den) :=
  plus_rounding (rearrFree_degLE_two.mono (degLE_mono (by norm_num))) f64Lin_canon f64Lin_canon f64Lin_terms
    f64Lin_terms f64Lin_floats f64Lin_floats f64Lin_alike f64Lin_alike f64Lin_fits

example : ∃ r, f64Lin.minus f64Lin = .ok r ∧ r.Approx (degLE 1) 1 (f64Lin.exact.den - f64Lin.exact.den)
    (f64Lin.exact.absolute.den + f64Lin.exact.absolute.den) :=
  minus_rounding (rearrFree_degLE_two.mono (degLE_mono (by norm_num))) f64Lin_canon f64Lin_canon f64Lin_terms
    f64Lin_terms f64Lin_floats f64Lin_floats f64Lin_alike f64Lin_alike f64Lin_fits

/-- All products are at least `2^-1022`. -/
def normalCheck (x : Go (Scalar F64)) (a : Scalar F64) : Bool :=
  match x with
  | .ok r => r.terms.all fun m => a.terms.all fun s => decide ((1 : ℚ) / 2 ^ 1022 ≤ |m.coeff.val * s.coeff.val|)
  | _ => true

theorem normalCheck_spec {x : Go (Scalar F64)} {a r : Scalar F64} (h : normalCheck x a = true) (hr : x = .ok r) :
    NoUnderflow r a := by
  subst hr
  intro m hm s hs
  simp only [normalCheck, List.all_eq_true, decide_eq_true_eq] at h
  exact Or.inl (h m hm s hs)

theorem f64Lin_normal : NoUnderflow f64Lin f64Lin :=
  normalCheck_spec (x := .ok f64Lin) (by decide +kernel) rfl

theorem prod_nonneg (i : ℕ) (d : ℕ →₀ ℕ) : 0 ≤ coeff d (f64Lin.exact.absolute.den ^ i) := by
  induction i generalizing d with
  | zero => rw [pow_zero, coeff_one]; split <;> simp
  | succ i ih => rw [pow_succ]; exact coeff_mul_nonneg ih (absolute_coeff_nonneg _) d

theorem eval_nonneg_lin : 0 ≤ eval (fun _ => 1) f64Lin.exact.absolute.den := by
  rw [absolute_eval]
  exact List.sum_nonneg fun x hx => by
    obtain ⟨y, -, rfl⟩ := List.mem_map.mp hx; exact abs_nonneg _

theorem f64Lin_fits_pow {n : ℕ} (hn : n ≤ 2 ^ 52) (i : ℕ) (hi : i ≤ 2) : NoOverflow n (f64Lin.exact.absolute.den ^ i) := by
  refine noOverflow_of_sum (prod_nonneg i) hn ?_
  rw [map_pow]
  have h1 := six_le i hi
  have h2 := pow_le_pow_left₀ eval_nonneg_lin f64Lin_sum i
  exact (h2.trans (le_add_of_nonneg_right (by positivity))).trans h1

/-- Three roundings: one product and two sums. -/
example : ∃ r, f64Lin.mul f64Lin = .ok r ∧ r.Approx (degLE (1 + 1)) 3 (f64Lin.exact.den * f64Lin.exact.den)
    (f64Lin.exact.absolute.den * f64Lin.exact.absolute.den) :=
  mul_rounding (prodIn_degLE 1 1) rearrFree_degLE_two f64Lin_canon f64Lin_canon f64Lin_terms
    f64Lin_terms f64Lin_floats f64Lin_floats f64Lin_repeats f64Lin_repeats f64Lin_normal (by
      have := f64Lin_fits_pow (n := 3) (by norm_num) 2 (by norm_num)
      rwa [pow_two] at this)

example : ∃ r, f64Lin.power (2 : ℕ) = .ok r ∧ r.Approx {d | NSum (degLE 1) 2 d} 6 (f64Lin.exact.den ^ 2)
    (f64Lin.exact.absolute.den ^ 2) :=
  pow_rounding 2 ((nsum_degLE 1 2).trans degLE_two_flat) f64Lin_canon f64Lin_terms f64Lin_floats f64Lin_repeats
    (fun i hi r hr => by
      refine normalCheck_spec ?_ hr
      obtain rfl | rfl : i = 0 ∨ i = 1 := by omega
      all_goals decide +kernel)
    fun i hi => f64Lin_fits_pow (by show 2 * (1 + 2) ≤ 2 ^ 52; norm_num) i hi

/-! ## The conditions are needed -/

/-- `2^53 x + x - 2^53 x - x`. -/
def f64Cancel : Scalar F64 := .poly ⟨[⟨.fin (2 ^ 53), [1], [f64Var 1]⟩, ⟨.fin 1, [1], [f64Var 1]⟩,
  ⟨.fin (-2 ^ 53), [1], [f64Var 1]⟩, ⟨.fin (-1), [1], [f64Var 1]⟩]⟩

/-- The result is `c x` with the variable `v`. -/
def isTerm (x : Go (Scalar F64)) (c : ℚ) (v : ℕ) : Bool :=
  match x with
  | .ok (.mono ⟨.fin p, [1], [w]⟩) => decide (p = c) && decide (w.id = v)
  | _ => false

theorem isTerm_den {x : Go (Scalar F64)} {c : ℚ} {v : ℕ} (h : isTerm x c v = true) :
    ∃ r, x = .ok r ∧ r.exact.den = monomial (Finsupp.single v 1) c := by
  unfold isTerm at h
  split at h
  · rename_i p w
    simp only [Bool.and_eq_true, decide_eq_true_eq] at h
    obtain ⟨rfl, rfl⟩ := h
    refine ⟨_, rfl, ?_⟩
    show Mono.den _ = _
    unfold Mono.den
    rw [Mono.exact_degs, Var.degs_one]
    rfl
  · cases h

/-- No bound relative to the exact result: `2^53 x + x - 2^53 x - x` simplifies to `-x`, while the exact
result is zero. -/
theorem relative_error_false : ¬ ∃ K : ℚ, ∀ a : Scalar F64, a.Canon → a.TermsIn (degLE 1) → a.Floats →
    ∀ r, a.asSimplified = .ok r → ∀ d, |coeff d r.exact.den - coeff d a.exact.den| ≤ K * |coeff d a.exact.den| := by
  rintro ⟨K, h⟩
  have hex : f64Cancel.exact.den = 0 := by
    have e : ∀ c : ℚ, Mono.den (Mono.exact ⟨.fin c, [1], [f64Var 1]⟩) = monomial (Finsupp.single 1 1) c := by
      intro c
      unfold Mono.den
      rw [Mono.exact_degs, Var.degs_one]; rfl
    show (List.map Mono.den (List.map Mono.exact _)).sum = 0
    simp only [List.map_cons, List.map_nil, List.sum_cons, List.sum_nil, e]
    rw [← map_zero (monomial (R := ℚ) (Finsupp.single 1 1)), ← map_add, ← map_add, ← map_add, ← map_add]
    congr 1
    norm_num
  obtain ⟨r, h1, h2⟩ := isTerm_den (x := f64Cancel.asSimplified) (c := -1) (v := 1) (by decide +kernel)
  have hc : f64Cancel.Canon := by
    refine ⟨by simp, fun m hm => ?_⟩
    fin_cases hm <;> exact ⟨rfl, by simp, by simp, by intro v hv; fin_cases hv; rfl⟩
  have ht : f64Cancel.TermsIn (degLE 1) := by
    intro m hm
    right
    have : m.degs = Finsupp.single 1 1 := by fin_cases hm <;> (rw [Var.degs_one]; rfl)
    rw [this]
    show (Finsupp.single 1 1).sum (fun _ e => e) ≤ 1
    rw [Finsupp.sum_single_index rfl]
  have hf : f64Cancel.Floats := floatCheck_spec (by decide +kernel)
  have := h _ hc ht hf r h1 (Finsupp.single 1 1)
  rw [hex, h2, coeff_monomial, if_pos rfl] at this
  norm_num at this

/-- Underflow: half of the least positive float is zero, an error of the size of the result. -/
theorem underflow_false : ∃ r, Scalar.mul (.mono ⟨.fin (1 / 2 ^ 1074), [1], [f64Var 1]⟩) (.k (.fin (1 / 2))) = .ok r ∧
    r.exact.den = 0 := by
  obtain ⟨r, h1, h2⟩ := isTerm_den
    (x := Scalar.mul (.mono ⟨.fin (1 / 2 ^ 1074), [1], [f64Var 1]⟩) (.k (.fin (1 / 2)))) (c := 0) (v := 1)
    (by decide +kernel)
  exact ⟨r, h1, by rw [h2, map_zero]⟩

/-- The result is `+Inf x`. -/
def isInfTerm : Go (Scalar F64) → Bool
  | .ok (.mono ⟨.inf false, [1], [_]⟩) => true
  | _ => false

/-- Overflow: `2^1023 x + 2^1023 x` has no finite coefficient. -/
theorem overflow_false : ∃ r, Scalar.plus (.mono ⟨.fin (2 ^ 1023), [1], [f64Var 1]⟩)
    (.mono ⟨.fin (2 ^ 1023), [1], [f64Var 1]⟩) = .ok r ∧ ¬ r.Floats := by
  have h : isInfTerm (Scalar.plus (.mono ⟨.fin (2 ^ 1023), [1], [f64Var 1]⟩)
    (.mono ⟨.fin (2 ^ 1023), [1], [f64Var 1]⟩)) = true := by decide +kernel
  generalize Scalar.plus (.mono ⟨.fin (2 ^ 1023), [1], [f64Var 1]⟩)
    (.mono ⟨.fin (2 ^ 1023), [1], [f64Var 1]⟩) = x at h ⊢
  unfold isInfTerm at h
  split at h
  · refine ⟨_, rfl, fun hf => ?_⟩
    obtain ⟨q, hq, -⟩ := hf _ (List.mem_singleton.mpr rfl)
    cases hq
  · cases h

end Verif
