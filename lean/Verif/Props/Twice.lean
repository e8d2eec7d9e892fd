import Verif.Props.MixedPartials

/-!
# C102: the factor two

Multiplication with a number does not distribute over sums in `float64`.  With two it does, and `e + e` is `e * 2`, bit
for bit, as long as nothing overflows.
-/

set_option linter.unusedSectionVars false

namespace Verif

section Twice
variable {a b : Scalar F64} {D : Set (ℕ →₀ ℕ)}

theorem F64.able_two : F64.Able 2 := by exact_mod_cast F64.able_small (k := 2) (by norm_num)

private theorem add_self (x : F64) : GoNum.add x x = GoNum.mul x (F64.fin 2) := by
  cases x with
  | nan => rfl
  | inf a => cases a <;> decide +kernel
  | fin q =>
    show F64.ofRat (q + q) = F64.ofRat (q * 2)
    rw [mul_two]

private theorem grid_add {p q : ℚ} (hp : F64.Grid p) (hq : F64.Grid q) : F64.Grid (p + q) := by
  obtain ⟨K, rfl⟩ := hp
  obtain ⟨L, rfl⟩ := hq
  exact ⟨K + L, by push_cast; ring⟩

private theorem twice_fin {p r : ℚ} (hp : F64.Able p) (h : GoNum.mul (F64.fin p) (F64.fin 2) = F64.fin r) :
    r = 2 * p := by
  have hg : F64.Grid p := hp.round.1 ▸ F64.grid_round53 p
  have h' : F64.ofRat (p * 2) = .fin r := h
  unfold F64.ofRat at h'
  rw [mul_comm p, round53_double hg, hp.round.1] at h'
  split at h'
  · simpa using h'.symm
  · cases h'

theorem F64.two_distrib {x y : F64} (hx : x.Value) (hy : y.Value) {r s : ℚ}
    (h1 : GoNum.mul x (F64.fin 2) = .fin r) (h2 : GoNum.mul y (F64.fin 2) = .fin s) :
    GoNum.mul (GoNum.add x y) (F64.fin 2) = GoNum.add (GoNum.mul x (F64.fin 2)) (GoNum.mul y (F64.fin 2)) := by
  have inf : ∀ c, (GoNum.mul (F64.inf c) (F64.fin 2) : F64) = F64.inf c := by intro c; cases c <;> decide +kernel
  cases x with
  | nan => cases h1
  | inf c => rw [inf] at h1; cases h1
  | fin p =>
    cases y with
    | nan => cases h2
    | inf c => rw [inf] at h2; cases h2
    | fin q =>
      have gp : F64.Grid p := (F64.Able.round hx).1 ▸ F64.grid_round53 p
      have gq : F64.Grid q := (F64.Able.round hy).1 ▸ F64.grid_round53 q
      rw [h1, h2, twice_fin hx h1, twice_fin hy h2]
      show GoNum.mul (F64.ofRat (p + q)) _ = F64.ofRat (2 * p + 2 * q)
      rw [F64.ofRat_double (grid_add gp gq), mul_add]

private theorem twice (hD : RearrFree D) (hF : D ⊆ flat) (ca : a.Canon) (ta : a.TermsIn D) (va : a.NumsValid)
    (oa : a.Repeats 1) : ∃ r, a.mul (.k (.fin 2)) = .ok r ∧ r.Canon ∧ r.TermsIn D ∧ r.NumsValid ∧ r.Repeats 1 ∧
      ∀ d, r.coeffAt d = GoNum.mul (a.coeffAt d) (.fin 2) := by
  obtain ⟨r, h1, h2, h3, h4, h5, -⟩ := mul_coeffs hD hF (prodIn_const D) ca (b := .k (.fin 2)) trivial ta trivial va
    (numL_single (N := F64.Value) (m := kToMono (F64.fin 2)) F64.able_two) oa (onceL_iff.mp (once_single _))
  obtain ⟨r', h6, -, h7⟩ := (scale_coeffs hD hF ca ta va oa F64.able_two).1
  rw [h1, Except.ok.injEq] at h6
  subst h6
  exact ⟨r, h1, h2, h3, h4, h5, h7⟩

/-- C102: an expression plus itself has the coefficients of the expression times two. -/
theorem plus_self_coeffs (hD : RearrFree D) (hF : D ⊆ flat) (ca : a.Canon) (ta : a.TermsIn D) (va : a.NumsValid)
    (oa : a.Repeats 1) :
    ∃ r r', a.plus a = .ok r ∧ a.mul (.k (.fin 2)) = .ok r' ∧ ∀ d, r.coeffAt d = r'.coeffAt d := by
  obtain ⟨r, h1, -, -, -, -, h2⟩ := plus_coeffs hD hF ca ca ta ta va va oa oa
  obtain ⟨r', h3, -, -, -, -, h4⟩ := twice hD hF ca ta va oa
  exact ⟨r, r', h1, h3, fun d => by rw [h2, h4, add_self]⟩

/-- C102: the factor two distributes over sums where twice the coefficients of the operands are finite. -/
theorem twice_sum_coeffs (hD : RearrFree D) (hF : D ⊆ flat) (ca : a.Canon) (cb : b.Canon) (ta : a.TermsIn D)
    (tb : b.TermsIn D) (va : a.NumsValid) (vb : b.NumsValid) (oa : a.Repeats 1) (ob : b.Repeats 1) :
    ∃ s r a2 b2 r', a.plus b = .ok s ∧ s.mul (.k (.fin 2)) = .ok r ∧ a.mul (.k (.fin 2)) = .ok a2 ∧
      b.mul (.k (.fin 2)) = .ok b2 ∧ a2.plus b2 = .ok r' ∧
      ∀ d, (∃ q, a2.coeffAt d = .fin q) → (∃ q, b2.coeffAt d = .fin q) → r.coeffAt d = r'.coeffAt d := by
  obtain ⟨s, s1, s2, s3, s4, s5, s6⟩ := plus_coeffs hD hF ca cb ta tb va vb oa ob
  obtain ⟨r, r1, -, -, -, -, r6⟩ := twice hD hF s2 s3 s4 s5
  obtain ⟨a2, a21, a22, a23, a24, a25, a26⟩ := twice hD hF ca ta va oa
  obtain ⟨b2, b21, b22, b23, b24, b25, b26⟩ := twice hD hF cb tb vb ob
  obtain ⟨r', r1', -, -, -, -, r6'⟩ := plus_coeffs hD hF a22 b22 a23 b23 a24 b24 a25 b25
  refine ⟨s, r, a2, b2, r', s1, r1, a21, b21, r1', fun d ⟨p, hp⟩ ⟨q, hq⟩ => ?_⟩
  rw [a26] at hp
  rw [b26] at hq
  rw [r6, r6', s6, a26, b26]
  exact F64.two_distrib (fco_num f64Laws va) (fco_num f64Laws vb) hp hq

end Twice

/-- C102: the doubled operands must be finite: `2^1023` and `-2^1023`. -/
theorem twice_sum_overflow_false :
    ((Scalar.k (F64.fin (2 ^ 1023))).plus (.k (F64.fin (-2 ^ 1023))) >>= fun s => s.mul (.k (F64.fin 2))) =
        .ok (.k (F64.fin 0)) ∧
    ((Scalar.k (F64.fin (2 ^ 1023))).mul (.k (F64.fin 2)) >>= fun x =>
      (Scalar.k (F64.fin (-2 ^ 1023))).mul (.k (F64.fin 2)) >>= fun y => x.plus y) = .ok (.k F64.nan) := by
  decide +kernel

/-- C102: the factor three does not distribute: `3 * (0.1 + 0.4)` and `3 * 0.1 + 3 * 0.4`. -/
theorem thrice_sum_false :
    ((Scalar.k (F64.fin f64Tenth)).plus (.k (F64.fin (4 * f64Tenth))) >>= fun s => s.mul (.k (F64.fin 3))) =
        .ok (.k (F64.fin (3 / 2))) ∧
    ((Scalar.k (F64.fin f64Tenth)).mul (.k (F64.fin 3)) >>= fun x =>
      (Scalar.k (F64.fin (4 * f64Tenth))).mul (.k (F64.fin 3)) >>= fun y => x.plus y) =
        .ok (.k (F64.fin (3 / 2 + 1 / 2 ^ 52))) := by
  decide +kernel

private theorem lin_terms : f64Lin.TermsIn (degLE 2) :=
  f64Lin_terms.mono (show degLE 1 ⊆ degLE 2 from fun _ h => le_trans (α := ℕ) h one_le_two)

example : ∃ r r', f64Lin.plus f64Lin = .ok r ∧ f64Lin.mul (.k (.fin 2)) = .ok r' ∧ ∀ d, r.coeffAt d = r'.coeffAt d :=
  plus_self_coeffs rearrFree_degLE_two degLE_two_flat f64Lin_canon lin_terms f64Lin_floats.valid f64Lin_repeats

/-- Twice the coefficients of `0.1 x + 5` are finite. -/
example : ∃ s r a2 b2 r', f64Lin.plus f64Lin = .ok s ∧ s.mul (.k (.fin 2)) = .ok r ∧ f64Lin.mul (.k (.fin 2)) = .ok a2 ∧
    f64Lin.mul (.k (.fin 2)) = .ok b2 ∧ a2.plus b2 = .ok r' ∧ r.coeffAt 0 = r'.coeffAt 0 := by
  obtain ⟨s, r, a2, b2, r', h1, h2, h3, h4, h5, h6⟩ := twice_sum_coeffs rearrFree_degLE_two degLE_two_flat
    f64Lin_canon f64Lin_canon lin_terms lin_terms f64Lin_floats.valid f64Lin_floats.valid f64Lin_repeats f64Lin_repeats
  have e : f64Lin.mul (.k (.fin 2)) =
      .ok (.poly ⟨[⟨.fin 10, [], []⟩, ⟨.fin (2 * f64Tenth), [1], [f64Var 1]⟩]⟩) := by decide +kernel
  have e2 : a2 = .poly ⟨[⟨.fin 10, [], []⟩, ⟨.fin (2 * f64Tenth), [1], [f64Var 1]⟩]⟩ := by
    rw [h3, Except.ok.injEq] at e
    exact e
  have e3 : b2 = a2 := by
    rw [h3, Except.ok.injEq] at h4
    exact h4.symm
  have fin : ∃ q, a2.coeffAt 0 = .fin q := by
    rw [e2]
    show ∃ q, fco 0 _ = _
    simp only [Scalar.terms, fco_cons]
    split
    · exact ⟨_, rfl⟩
    · split
      · exact ⟨_, rfl⟩
      · exact ⟨_, rfl⟩
  exact ⟨s, r, a2, b2, r', h1, h2, h3, h4, h5, h6 0 fin (e3 ▸ fin)⟩

end Verif
