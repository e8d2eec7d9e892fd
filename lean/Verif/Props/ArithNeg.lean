import Verif.Props.Arith

/-!
# C01-C06: counterexamples, exact boundary, and non-vacuity examples
-/

set_option linter.unusedSectionVars false

namespace Verif

open MvPolynomial

/-! ## Counterexamples -/

theorem wm1_den (c : ℚ) (i : Nat) (e : Int) : (wm1 c i e).den = C c * X i ^ e.toNat := by
  rw [Mono.den_eq_prod]; simp [wm1, wv]

theorem wm2_den (c : ℚ) (i j : Nat) (e f : Int) :
    (wm2 c i j e f).den = C c * (X i ^ e.toNat * X j ^ f.toNat) := by
  rw [Mono.den_eq_prod]; simp [wm2, wv]

/-- The assignment `x_0 = 1, x_1 = 2`, others `0`. -/
def wρ : ℕ → ℚ := fun i => if i = 0 then 1 else if i = 1 then 2 else 0

/-- `x^2*y` -/
def wA : Scalar ℚ := .mono (wm2 1 0 1 2 1)
/-- `y^2*x` -/
def wB : Scalar ℚ := .mono (wm2 1 1 0 2 1)
/-- `x + y` -/
def wS : Scalar ℚ := .poly ⟨[wm1 1 0 1, wm1 1 1 1]⟩
/-- `x*y` -/
def wP : Scalar ℚ := .mono (wm2 1 0 1 1 1)

theorem wA_canon : wA.Canon := wm2_canon 1 (by decide) (by decide) (by decide)
theorem wB_canon : wB.Canon := wm2_canon 1 (by decide) (by decide) (by decide)
theorem wP_canon : wP.Canon := wm2_canon 1 (by decide) (by decide) (by decide)
theorem wS_canon : wS.Canon := ⟨by simp, by
  intro m hm
  simp only [List.mem_cons, List.not_mem_nil, or_false] at hm
  rcases hm with rfl | rfl
  · exact wm1_canon 1 0 (by decide)
  · exact wm1_canon 1 1 (by decide)⟩

/-- The full statement of C01 is false: `x^2*y + y^2*x` is computed as `2*x^2*y`. -/
theorem plus_false :
    ¬ ∀ a b : Scalar ℚ, a.Canon → b.Canon → ∃ r, a.plus b = .ok r ∧ r.den = a.den + b.den := by
  intro h
  obtain ⟨r, h1, h2⟩ := h wA wB wA_canon wB_canon
  have h3 : wA.plus wB = .ok (.mono (wm2 2 0 1 2 1)) := by decide +kernel
  rw [h3, Except.ok.injEq] at h1
  subst h1
  have h4 := congrArg (eval wρ) h2
  simp only [wA, wB, Scalar.den, wm2_den, map_add, map_mul, eval_C, map_pow, eval_X] at h4
  norm_num [wρ, Int.toNat] at h4

/-- The full statement of C02 is false: `(x+y)*(x*y)` is computed as `2*x^2*y`. -/
theorem mul_false :
    ¬ ∀ a b : Scalar ℚ, a.Canon → b.Canon → ∃ r, a.mul b = .ok r ∧ r.den = a.den * b.den := by
  intro h
  obtain ⟨r, h1, h2⟩ := h wS wP wS_canon wP_canon
  have h3 : wS.mul wP = .ok (.mono (wm2 2 0 1 2 1)) := by decide +kernel
  rw [h3, Except.ok.injEq] at h1
  subst h1
  have h4 := congrArg (eval wρ) h2
  simp only [wS, wP, Scalar.den, Poly.den, List.map_cons, List.map_nil, List.sum_cons,
    List.sum_nil, wm1_den, wm2_den, map_add, map_mul, eval_C, map_pow, eval_X, map_zero] at h4
  norm_num [wρ, Int.toNat] at h4

/-- The full statement of C03 is false: `x^2*y - y^2*x` is computed as `0`. -/
theorem minus_false :
    ¬ ∀ a b : Scalar ℚ, a.Canon → b.Canon → ∃ r, a.minus b = .ok r ∧ r.den = a.den - b.den := by
  intro h
  obtain ⟨r, h1, h2⟩ := h wA wB wA_canon wB_canon
  have h3 : wA.minus wB = .ok (.k 0) := by decide +kernel
  rw [h3, Except.ok.injEq] at h1
  subst h1
  have h4 := congrArg (eval wρ) h2
  simp only [wA, wB, Scalar.den, wm2_den, map_sub, map_mul, eval_C, map_pow, eval_X] at h4
  norm_num [wρ, Int.toNat] at h4

/-- The full statement of C04 is false: `(x+y)^3` is computed as `x^3 + 2*x^2*y + 4*x*y^2 + y^3`. -/
theorem power_false :
    ¬ ∀ (a : Scalar ℚ) (n : Int), a.Canon → 0 ≤ n →
      ∃ r, a.power n = .ok r ∧ r.den = a.den ^ n.toNat := by
  intro h
  obtain ⟨r, h1, h2⟩ := h wS 3 wS_canon (by decide)
  have h3 : wS.power 3 = .ok (.poly ⟨[wm1 1 0 3, wm2 2 1 0 1 2, wm2 4 1 0 2 1, wm1 1 1 3]⟩) := by
    decide +kernel
  rw [h3, Except.ok.injEq] at h1
  subst h1
  have h4 := congrArg (eval wρ) h2
  simp only [wS, Scalar.den, Poly.den, List.map_cons, List.map_nil, List.sum_cons,
    List.sum_nil, wm1_den, wm2_den, map_add, map_mul, eval_C, map_pow, eval_X, map_zero] at h4
  norm_num [wρ, Int.toNat] at h4

/-- The full statement of C06 is false: simplifying `x^2*y + y^2*x` gives `2*x^2*y`. -/
theorem asSimplified_false :
    ¬ ∀ a : Scalar ℚ, a.Canon → ∃ r, a.asSimplified = .ok r ∧ r.den = a.den := by
  intro h
  obtain ⟨r, h1, h2⟩ := h (.poly ⟨[wm2 1 0 1 2 1, wm2 1 1 0 2 1]⟩) ⟨by simp, by
    intro m hm
    simp only [List.mem_cons, List.not_mem_nil, or_false] at hm
    rcases hm with rfl | rfl
    · exact wA_canon
    · exact wB_canon⟩
  have h3 : (Scalar.poly ⟨[wm2 1 0 1 2 1, wm2 1 1 0 2 1]⟩).asSimplified =
      .ok (.mono (wm2 2 0 1 2 1)) := by decide +kernel
  rw [h3, Except.ok.injEq] at h1
  subst h1
  have h4 := congrArg (eval wρ) h2
  simp only [Scalar.den, Poly.den, List.map_cons, List.map_nil, List.sum_cons,
    List.sum_nil, wm2_den, map_add, map_mul, eval_C, map_pow, eval_X, map_zero] at h4
  norm_num [wρ, Int.toNat] at h4

/-- The full statement of C05 is false: `Plus` is not even commutative up to meaning
(`x^2*y + y^2*x` versus `y^2*x + x^2*y`). -/
theorem plus_comm_false :
    ¬ ∀ a b : Scalar ℚ, a.Canon → b.Canon →
      ∃ r s, a.plus b = .ok r ∧ b.plus a = .ok s ∧ r.den = s.den := by
  intro h
  obtain ⟨r, s, h1, h2, h3⟩ := h wA wB wA_canon wB_canon
  have h4 : wA.plus wB = .ok (.mono (wm2 2 0 1 2 1)) := by decide +kernel
  have h5 : wB.plus wA = .ok (.mono (wm2 2 1 0 2 1)) := by decide +kernel
  rw [h4, Except.ok.injEq] at h1
  rw [h5, Except.ok.injEq] at h2
  subst h1 h2
  have h6 := congrArg (eval wρ) h3
  simp only [Scalar.den, wm2_den, map_mul, eval_C, map_pow, eval_X] at h6
  norm_num [wρ, Int.toNat] at h6

/-! ## The boundary is exact -/

section Tight

variable {R : Type} [Field R] [LinearOrder R] [IsStrictOrderedRing R]

private def mkVar (R : Type) [Field R] (i : ℕ) : Var R := ⟨i, 0, 1, 0, "x", 0⟩

private theorem mkVar_ok (i : ℕ) : (mkVar R i).OK := by
  show decide ((1 : R) ≤ 0) = false
  simp

private theorem mk_canon {d : ℕ →₀ ℕ} {l : List ℕ} {es : List Int} (hl : l.Nodup)
    (he : es = l.map (fun i => (d i : Int))) (hs : ∀ i ∈ l, d i ≠ 0) :
    (Mono.mk (1 : R) es (l.map (mkVar R))).Canon := by
  refine ⟨by simp [he], ?_, ?_, ?_⟩
  · intro e h
    rw [he] at h
    obtain ⟨i, hi, rfl⟩ := List.mem_map.mp h
    have := hs i hi
    omega
  · simp only [List.map_map]
    have : ((fun x : Var R => x.id) ∘ mkVar R) = id := rfl
    rw [this, List.map_id]
    exact hl
  · intro v hv
    obtain ⟨i, -, rfl⟩ := List.mem_map.mp hv
    exact mkVar_ok i

private theorem mk_degs {d : ℕ →₀ ℕ} {l : List ℕ} {es : List Int}
    (he : es = l.map (fun i => (d i : Int))) (hl : l.Perm d.support.toList) :
    (Mono.mk (1 : R) es (l.map (mkVar R))).degs = d := by
  unfold Mono.degs
  simp only [he, List.zip_map', List.map_map]
  have h1 : ((fun ve : Var R × Int => Finsupp.single ve.1.id ve.2.toNat) ∘
      fun x => (mkVar R x, (d x : Int))) = fun i => Finsupp.single i (d i) := by
    funext i; simp [mkVar]
  rw [h1, (hl.map _).sum_eq, Finset.sum_map_toList]
  exact Finsupp.sum_single d

/-- The condition of `plus_denotes_sum_partial` cannot be weakened: addition of expressions with
terms in `D` is always exact **if and only if** `D` is rearrangement-free. -/
theorem plus_exact_iff_rearrFree (D : Set (ℕ →₀ ℕ)) :
    (∀ a b : Scalar R, a.Canon → b.Canon → a.TermsIn D → b.TermsIn D →
      ∃ r, a.plus b = .ok r ∧ r.den = a.den + b.den) ↔ RearrFree D := by
  constructor
  · intro h d hd d' hd' hr
    by_contra hne
    -- list the support of `d`, and the support of `d'` in an order with the same exponents
    have hperm : (d.support.toList.map d).Perm (d'.support.toList.map d') := by
      have := hr.2
      rw [← Finset.coe_toList d.support, ← Finset.coe_toList d'.support, Multiset.map_coe,
        Multiset.map_coe, Multiset.coe_eq_coe] at this
      exact this
    obtain ⟨w, hw1, hw2⟩ := List.perm_comp_forall₂ (r := fun (a : ℕ) (b : ℕ) => a = d' b) hperm
      (v := d'.support.toList) (by
        rw [List.forall₂_map_left_iff]
        exact List.forall₂_same.mpr (fun _ _ => rfl))
    have hwe : d.support.toList.map d = w.map d' := by
      have h2 : List.Forall₂ Eq (d.support.toList.map d) (w.map d') := by
        rw [List.forall₂_map_right_iff]; exact hw1
      exact List.forall₂_eq_eq_eq ▸ h2
    set l := d.support.toList with hl
    have he1 : l.map (fun i => (d i : Int)) = l.map (fun i => (d i : Int)) := rfl
    have he2 : l.map (fun i => (d i : Int)) = w.map (fun i => (d' i : Int)) := by
      have := congrArg (List.map (Nat.cast : ℕ → Int)) hwe
      simpa [List.map_map, Function.comp_def] using this
    have hlnd : l.Nodup := Finset.nodup_toList _
    have hwnd : w.Nodup := hw2.nodup_iff.mpr (Finset.nodup_toList _)
    set a : Mono R := ⟨1, l.map (fun i => (d i : Int)), l.map (mkVar R)⟩ with ha
    set b : Mono R := ⟨1, l.map (fun i => (d i : Int)), w.map (mkVar R)⟩ with hb
    have ca : a.Canon := mk_canon hlnd he1 (fun i hi => by simpa [hl] using hi)
    have cb : b.Canon := mk_canon hwnd he2 (fun i hi => by
      have := hw2.mem_iff.mp hi
      simpa using this)
    have da : a.degs = d := mk_degs he1 (List.Perm.refl _)
    have db : b.degs = d' := mk_degs he2 hw2
    obtain ⟨r, h1, h2⟩ := h (.mono a) (.mono b) ca cb (Or.inr (da ▸ hd)) (Or.inr (db ▸ hd'))
    -- the two monomials match
    have hm : a.matchesFormOf b = .ok true := by
      rw [Mono.matches_ok ca.len cb.len]
      simp only [Except.ok.injEq, decide_eq_true_eq]
      refine ⟨?_, rfl, ?_⟩
      · rw [← ca.len, ← cb.len]
      · intro v hv
        obtain ⟨i, hi, rfl⟩ := List.mem_map.mp hv
        have : i ∈ w := by
          rw [hw2.mem_iff, Finset.mem_toList, ← hr.1, ← Finset.mem_toList]
          exact hi
        exact List.mem_map.mpr ⟨mkVar R i, List.mem_map_of_mem this, rfl⟩
    have hc : Good (fun _ => True) Set.univ
        (Scalar.mono { a with coeff := GoNum.add a.coeff b.coeff }) := by
      apply good_of_univ
      exact ⟨ca.len, ca.pos, ca.nodup, ca.ok⟩
    have h3 : (Scalar.mono a).plus (.mono b) =
        Mono.asSimplified { a with coeff := GoNum.add a.coeff b.coeff } := by
      show Mono.plus a _ = _
      unfold Mono.plus
      rw [ca.check, show (Scalar.mono b).check = b.check from rfl, cb.check, Go.ok_bind,
        Go.ok_bind]
      simp only [hm, Go.ok_bind, if_true, Go.pure_eq]
      rfl
    obtain ⟨r', h4, -, h5⟩ := Mono.asSimplified_den (P := fun _ => True) (D := Set.univ) hc
    rw [h3, h4, Except.ok.injEq] at h1
    subst h1
    rw [h5] at h2
    have h6 := congrArg (coeff d') h2
    rw [Mono.den_degs (show (Mono.degs { a with coeff := GoNum.add a.coeff b.coeff }) = d from da),
      Scalar.den_mono, Scalar.den_mono, Mono.den_degs da, Mono.den_degs db, coeff_add,
      coeff_monomial, coeff_monomial, coeff_monomial, if_neg hne, if_neg hne, if_pos rfl] at h6
    simp [hb] at h6
  · intro hD a b ha hb ta tb
    obtain ⟨r, h1, -, -, h4⟩ := plus_denotes_sum_partial hD ha hb ta tb
    exact ⟨r, h1, h4⟩

end Tight

/-! ## Non-vacuity -/

/-- `3*x*y + 2*x + 5` -/
def wQ : Scalar ℚ := .poly ⟨[wm2 3 0 1 1 1, wm1 2 0 1, wm0 5]⟩

theorem wQ_canon : wQ.Canon := ⟨by simp, by
  intro m hm
  simp only [List.mem_cons, List.not_mem_nil, or_false] at hm
  rcases hm with rfl | rfl | rfl
  · exact wm2_canon 3 (by decide) (by decide) (by decide)
  · exact wm1_canon 2 0 (by decide)
  · exact wm0_canon 5⟩

theorem single_degree (i n : ℕ) : ((Finsupp.single i n).sum fun _ e => e) = n :=
  Finsupp.sum_single_index rfl

theorem wQ_terms : wQ.TermsIn (degLE 2) := by
  intro m hm
  simp only [List.mem_cons, List.not_mem_nil, or_false] at hm
  right
  rcases hm with rfl | rfl | rfl
  · rw [wm2_degs]
    show ((_ + _ : ℕ →₀ ℕ).sum fun _ e => e) ≤ 2
    rw [degree_add, single_degree, single_degree]; decide
  · rw [wm1_degs]
    show ((_ : ℕ →₀ ℕ).sum fun _ e => e) ≤ 2
    rw [single_degree]; decide
  · rw [wm0_degs]
    show ((0 : ℕ →₀ ℕ).sum fun _ e => e) ≤ 2
    simp

theorem wS_terms : wS.TermsIn (degLE 1) := by
  intro m hm
  simp only [List.mem_cons, List.not_mem_nil, or_false] at hm
  right
  rcases hm with rfl | rfl <;>
  · rw [wm1_degs]
    show ((_ : ℕ →₀ ℕ).sum fun _ e => e) ≤ 1
    rw [single_degree]; decide

/-- `x^3 + x` -/
def wU : Scalar ℚ := .poly ⟨[wm1 1 0 3, wm1 1 0 1]⟩

theorem wU_canon : wU.Canon := ⟨by simp, by
  intro m hm
  simp only [List.mem_cons, List.not_mem_nil, or_false] at hm
  rcases hm with rfl | rfl
  · exact wm1_canon 1 0 (by decide)
  · exact wm1_canon 1 0 (by decide)⟩

theorem wU_terms : wU.TermsIn (univ1 0) := by
  intro m hm
  simp only [List.mem_cons, List.not_mem_nil, or_false] at hm
  right
  rcases hm with rfl | rfl <;>
  · rw [wm1_degs]
    exact Finsupp.support_single_subset

/-- The hypotheses of the C01/C03/C05/C06 theorems hold for `3xy + 2x + 5` and `x + y`. -/
example : ∃ r, wQ.plus wS = .ok r ∧ r.Canon ∧ r.TermsIn (degLE 2) ∧ r.den = wQ.den + wS.den :=
  plus_denotes_sum_deg_two wQ_canon wS_canon wQ_terms (wS_terms.mono (degLE_mono (by decide)))

example : ∃ r, wQ.minus wS = .ok r ∧ r.Canon ∧ r.TermsIn (degLE 2) ∧ r.den = wQ.den - wS.den :=
  minus_denotes_difference_deg_two wQ_canon wS_canon wQ_terms
    (wS_terms.mono (degLE_mono (by decide)))

example : ∃ r, wS.mul wS = .ok r ∧ r.Canon ∧ r.TermsIn (degLE 2) ∧ r.den = wS.den * wS.den :=
  mul_denotes_product_affine wS_canon wS_canon wS_terms wS_terms

example : ∃ r, wU.power 7 = .ok r ∧ r.Canon ∧ r.TermsIn (univ1 0) ∧ r.den = wU.den ^ 7 :=
  power_denotes_power_univariate 0 wU_canon wU_terms (by decide)

example : ∃ r, wP.power 9 = .ok r ∧ r.Canon ∧ (∀ p, r ≠ .poly p) ∧ r.den = wP.den ^ 9 :=
  power_denotes_power_nonpoly wP_canon (by simp [wP]) (by decide)

example : ∃ r, wQ.asSimplified = .ok r ∧ r.Canon ∧ r.TermsIn (degLE 2) ∧ r.den = wQ.den :=
  asSimplified_denotes_same_partial rearrFree_degLE_two wQ_canon wQ_terms

example : wS.power (-1) = .error .negExponent := power_negative wS_canon (by decide)

/-- The result of a sum that simplifies: `(x + y) - y` is the `Variable` `x`. -/
example : wS.minus (.var wy) = .ok (.var wx) := by decide +kernel

end Verif
