import Verif.Props.CoefsDeriv
import Verif.Lemmas.Doubling

/-!
# C101: mixed second derivatives

`DerivativeWrt` twice, with two variables.  In exact arithmetic the order has no influence (C09,
`derivative_symmetric`).  In `float64` the two orders multiply a coefficient by the same two exponents, but in another
order.  As there, values only: each of the two runs starts from its own copy of the operand, since `DerivativeWrt`
may change it (C10).
-/

set_option linter.unusedSectionVars false

namespace Verif

open MvPolynomial

/-- `e.DerivativeWrt(v).DerivativeWrt(w)`. -/
def Scalar.derivative2 {R : Type} [GoNum R] (e : Scalar R) (v w : Var R) : Go (Scalar R) := do
  (← e.derivative v).derivative w

section Floats
variable {a : Scalar F64} {v w : Var F64}

private theorem ofInt_fin {n : ℕ} (h : n ≤ 2 ^ 53) : (GoNum.ofInt (n : ℤ) : F64) = .fin n := by
  have := F64.able_small (k := (n : ℤ)) (by rw [abs_of_nonneg (by positivity)]; exact_mod_cast h)
  exact_mod_cast this

private theorem derivAt_eq (x : Scalar F64) {i : ℕ} {d : ℕ →₀ ℕ} (h : d i < 2 ^ 53) :
    x.derivAt i d = GoNum.mul (x.coeffAt (d + Finsupp.single i 1)) (GoNum.ofInt ((d i + 1 : ℕ) : ℤ)) := by
  unfold Scalar.derivAt
  split
  · rfl
  · rename_i hn
    have : x.coeffAt (d + Finsupp.single i 1) = .fin 0 := fco_none fun m hm e => hn ⟨m, hm, e⟩
    rw [this, ofInt_fin (by omega), F64.zero_mul_fin]

/-- C101: each coefficient of a second derivative is computed with two multiplications, first by the exponent of the
first variable. -/
theorem second_derivative_coeffs (ca : a.Canon) (va : a.NumsValid) (oa : a.Repeats 1) (hv : v.OK) (hw : w.OK) :
    ∃ r, a.derivative2 v w = .ok r ∧ r.Canon ∧ r.NumsValid ∧ r.Repeats 1 ∧ ∀ d : ℕ →₀ ℕ, d v.id + 1 < 2 ^ 53 → d w.id < 2 ^ 53 →
      r.coeffAt d = GoNum.mul (GoNum.mul (a.coeffAt (d + Finsupp.single w.id 1 + Finsupp.single v.id 1))
        (GoNum.ofInt (((d + Finsupp.single w.id 1 : ℕ →₀ ℕ) v.id + 1 : ℕ) : ℤ))) (GoNum.ofInt ((d w.id + 1 : ℕ) : ℤ)) := by
  obtain ⟨x, x1, x2, x3, x4⟩ := derivative_coeffs_exact ca va oa hv
  obtain ⟨x', x5, x6, -⟩ := derivative_total ca hv
  rw [x1, Except.ok.injEq] at x5
  subst x5
  obtain ⟨y, y1, y2, y3, y4⟩ := derivative_coeffs_exact x6 x2 x3 hw
  obtain ⟨y', y5, y6, -⟩ := derivative_total x6 hw
  rw [y1, Except.ok.injEq] at y5
  subst y5
  refine ⟨y, ?_, y6, y2, y3, fun d h1 h2 => ?_⟩
  · unfold Scalar.derivative2; rw [x1, Go.ok_bind, y1]
  · rw [y4, derivAt_eq _ h2, x4, derivAt_eq]
    rw [Finsupp.add_apply, Finsupp.single_apply]
    split <;> omega

private theorem swap_small {c : F64} (hc : c.Value) {m n : ℕ} (hn : n < 2 ^ 53) (h : m = 0 ∨ m = 1 ∨ m = 3) :
    GoNum.mul (GoNum.mul c (GoNum.ofInt ((m + 1 : ℕ) : ℤ))) (GoNum.ofInt ((n + 1 : ℕ) : ℤ)) =
      GoNum.mul (GoNum.mul c (GoNum.ofInt ((n + 1 : ℕ) : ℤ))) (GoNum.ofInt ((m + 1 : ℕ) : ℤ)) := by
  rcases h with rfl | rfl | rfl
  · rw [show (GoNum.ofInt ((0 + 1 : ℕ) : ℤ) : F64) = GoNum.one from ofInt_one, F64.mul_one_value hc,
      F64.mul_one_value (F64.value_mul ..)]
  · rw [ofInt_fin (n := n + 1) (by omega), ofInt_fin (n := 1 + 1) (by norm_num)]
    exact_mod_cast F64.mul_two_swap hc (Nat.succ_pos n)
  · rw [ofInt_fin (n := n + 1) (by omega), ofInt_fin (n := 3 + 1) (by norm_num),
      show (((3 + 1 : ℕ) : ℚ)) = 4 by norm_num, F64.mul_four hc, F64.mul_four (F64.value_mul ..),
      F64.mul_two_swap (F64.value_mul ..) (Nat.succ_pos n), F64.mul_two_swap hc (Nat.succ_pos n)]

private theorem swap_factors {c : F64} (hc : c.Value) {m n : ℕ} (hm : m < 2 ^ 53) (hn : n < 2 ^ 53)
    (h : m = n ∨ (m = 0 ∨ m = 1 ∨ m = 3) ∨ n = 0 ∨ n = 1 ∨ n = 3) :
    GoNum.mul (GoNum.mul c (GoNum.ofInt ((m + 1 : ℕ) : ℤ))) (GoNum.ofInt ((n + 1 : ℕ) : ℤ)) =
      GoNum.mul (GoNum.mul c (GoNum.ofInt ((n + 1 : ℕ) : ℤ))) (GoNum.ofInt ((m + 1 : ℕ) : ℤ)) := by
  rcases h with rfl | h | h
  · rfl
  · exact swap_small hc hn h
  · exact (swap_small hc hm h).symm

private theorem coeffAt_value (va : a.NumsValid) (d : ℕ →₀ ℕ) : (a.coeffAt d).Value := by
  by_cases h : ∃ m ∈ a.terms, m.degs = d
  · unfold Scalar.coeffAt
    obtain ⟨m, hm, -⟩ := h
    have : ∀ l : List (Mono F64), (∀ m ∈ l, m.coeff.Value) → (fco d l).Value := by
      intro l
      induction l with
      | nil => exact fun _ => f64Laws.zero
      | cons m l ih =>
        intro h
        rw [fco_cons]
        split
        · exact h m (by simp)
        · exact ih fun x hx => h x (by simp [hx])
    exact this _ va
  · have : a.coeffAt d = GoNum.zero := fco_none fun m hm e => h ⟨m, hm, e⟩
    rw [this]
    exact f64Laws.zero

/-- C101: the two orders give the same coefficient of every term in which both variables have the same exponent, or
one of them has the exponent 1, 2 or 4. -/
theorem mixed_partials_same (ca : a.Canon) (va : a.NumsValid) (oa : a.Repeats 1) (hv : v.OK) (hw : w.OK) :
    ∃ x y, a.derivative2 v w = .ok x ∧ a.derivative2 w v = .ok y ∧ ∀ d : ℕ →₀ ℕ, d v.id + 1 < 2 ^ 53 →
      d w.id + 1 < 2 ^ 53 → d v.id = d w.id ∨ (d v.id = 0 ∨ d v.id = 1 ∨ d v.id = 3) ∨
        d w.id = 0 ∨ d w.id = 1 ∨ d w.id = 3 → x.coeffAt d = y.coeffAt d := by
  obtain ⟨x, x1, -, -, -, x2⟩ := second_derivative_coeffs ca va oa hv hw
  obtain ⟨y, y1, -, -, -, y2⟩ := second_derivative_coeffs ca va oa hw hv
  refine ⟨x, y, x1, y1, fun d h1 h2 h => ?_⟩
  by_cases e : v.id = w.id
  · rw [x2 d h1 (by omega), y2 d h2 (by omega), e]
  · rw [x2 d h1 (by omega), y2 d h2 (by omega), add_right_comm, Finsupp.add_apply, Finsupp.add_apply,
      Finsupp.single_eq_of_ne e, Finsupp.single_eq_of_ne (Ne.symm e), add_zero, add_zero]
    exact swap_factors (coeffAt_value va _) (by omega) (by omega) h

private theorem degs_le {n : ℕ} (h : a.TermsIn (degLE n)) : ∀ m ∈ a.terms, m.degs ∈ degLE n := by
  have zero : ∀ m : Mono F64, m.vars = [] ∨ m.degs ∈ degLE n → m.degs ∈ degLE n := by
    rintro m (hm | hm)
    · have : m.degs = 0 := by simp [Mono.degs, hm]
      rw [this]
      simp [degLE]
    · exact hm
  intro m hm
  cases a with
  | k c =>
    obtain rfl : m = kToMono c := by simpa [Scalar.terms] using hm
    exact zero _ (Or.inl rfl)
  | var u =>
    obtain rfl : m = u.toMono := by simpa [Scalar.terms] using hm
    rw [show (u.toMono : Mono F64).degs = Finsupp.single u.id 1 from Var.degs_one u GoNum.one 1]
    exact h
  | mono x =>
    obtain rfl : m = x := by simpa [Scalar.terms] using hm
    exact zero _ h
  | poly p => exact zero _ (h m hm)

private theorem two_le_sum {i j : ℕ} (h : i ≠ j) (d : ℕ →₀ ℕ) : d i + d j ≤ d.sum fun _ e => e := by
  have : (({i, j} : Finset ℕ).sum fun x => d x) ≤ d.sum fun _ e => e := by
    rw [Finsupp.sum_of_support_subset d (s := d.support ∪ {i, j}) Finset.subset_union_left _ (fun _ _ => rfl)]
    exact Finset.sum_le_sum_of_subset Finset.subset_union_right
  rwa [Finset.sum_pair h] at this

/-- C101: for expressions of degree at most seven, all coefficients. -/
theorem mixed_partials_small (ca : a.Canon) (va : a.NumsValid) (oa : a.Repeats 1) (hv : v.OK) (hw : w.OK)
    (hd : a.TermsIn (degLE 7)) :
    ∃ x y, a.derivative2 v w = .ok x ∧ a.derivative2 w v = .ok y ∧ ∀ d : ℕ →₀ ℕ, d v.id + 1 < 2 ^ 53 →
      d w.id + 1 < 2 ^ 53 → x.coeffAt d = y.coeffAt d := by
  obtain ⟨x, x1, -, -, -, x2⟩ := second_derivative_coeffs ca va oa hv hw
  obtain ⟨y, y1, -, -, -, y2⟩ := second_derivative_coeffs ca va oa hw hv
  obtain ⟨x', y', x1', y1', h⟩ := mixed_partials_same ca va oa hv hw
  rw [x1, Except.ok.injEq] at x1'
  rw [y1, Except.ok.injEq] at y1'
  subst x1' y1'
  refine ⟨x, y, x1, y1, fun d h1 h2 => ?_⟩
  by_cases hc : d v.id = d w.id ∨ (d v.id = 0 ∨ d v.id = 1 ∨ d v.id = 3) ∨ d w.id = 0 ∨ d w.id = 1 ∨ d w.id = 3
  · exact h d h1 h2 hc
  · have e : v.id ≠ w.id := fun e => hc (Or.inl (by rw [e]))
    have zero : a.coeffAt (d + Finsupp.single w.id 1 + Finsupp.single v.id 1) = .fin 0 := by
      refine fco_none fun m hm em => ?_
      have h3 := degs_le hd m hm
      rw [em] at h3
      have h4 := two_le_sum e (d + Finsupp.single w.id 1 + Finsupp.single v.id 1)
      simp only [Finsupp.add_apply, Finsupp.single_eq_same, Finsupp.single_eq_of_ne e,
        Finsupp.single_eq_of_ne (Ne.symm e)] at h4
      have h5 : ((d + Finsupp.single w.id 1 + Finsupp.single v.id 1).sum fun _ e => e) ≤ 7 := h3
      omega
    rw [x2 d h1 (by omega), y2 d h2 (by omega), add_right_comm d (Finsupp.single v.id 1), zero,
      Finsupp.add_apply, Finsupp.add_apply, Finsupp.single_eq_of_ne e, Finsupp.single_eq_of_ne (Ne.symm e), add_zero,
      add_zero, ofInt_fin (by omega), ofInt_fin (by omega), F64.zero_mul_fin, F64.zero_mul_fin, F64.zero_mul_fin]

end Floats

/-- C101: degree eight is too much: `0.1·x³y⁵`: by `x` first, `(0.1 * 3) * 5`; by `y` first, `(0.1 * 5) * 3`. -/
theorem mixed_partials_false :
    (Scalar.mono ⟨F64.fin f64Tenth, [3, 5], [f64Var 1, f64Var 2]⟩).derivative2 (f64Var 1) (f64Var 2) =
        .ok (.mono ⟨F64.fin (3/2 + 1/2^52), [2, 4], [f64Var 1, f64Var 2]⟩) ∧
    (Scalar.mono ⟨F64.fin f64Tenth, [3, 5], [f64Var 1, f64Var 2]⟩).derivative2 (f64Var 2) (f64Var 1) =
        .ok (.mono ⟨F64.fin (3/2), [2, 4], [f64Var 1, f64Var 2]⟩) := by
  decide +kernel

example : ∃ x y, (Scalar.mono ⟨F64.fin f64Tenth, [3, 4], [f64Var 1, f64Var 2]⟩).derivative2 (f64Var 1) (f64Var 2) = .ok x ∧
    (Scalar.mono ⟨F64.fin f64Tenth, [3, 4], [f64Var 1, f64Var 2]⟩).derivative2 (f64Var 2) (f64Var 1) = .ok y ∧
    x.coeffAt (Finsupp.single 1 2 + Finsupp.single 2 3) = y.coeffAt (Finsupp.single 1 2 + Finsupp.single 2 3) := by
  have hv : ∀ n, (f64Var n).OK := fun n => by
    show GoNum.le (F64.inf false) (F64.inf true) = false
    decide +kernel
  have able : F64.Able f64Tenth := by unfold F64.Able; decide +kernel
  have hc : (⟨F64.fin f64Tenth, [3, 4], [f64Var 1, f64Var 2]⟩ : Mono F64).Canon :=
    ⟨rfl, by simp, by simp [f64Var], by simp [hv]⟩
  obtain ⟨x, y, x1, y1, h⟩ := mixed_partials_small (v := f64Var 1) (w := f64Var 2)
    (a := .mono ⟨F64.fin f64Tenth, [3, 4], [f64Var 1, f64Var 2]⟩) hc (numL_single (N := F64.Value) able)
    (onceL_iff.mp (once_single _)) (hv 1) (hv 2) (Or.inr (by
      show ((Finsupp.single 1 3 + (Finsupp.single 2 4 + 0) : ℕ →₀ ℕ).sum fun _ e => e) ≤ 7
      rw [Finsupp.sum_add_index' (by simp) (by simp), Finsupp.sum_add_index' (by simp) (by simp)]
      simp))
  exact ⟨x, y, x1, y1, h _ (by simp [f64Var]) (by simp [f64Var])⟩

end Verif
