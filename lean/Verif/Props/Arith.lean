import Verif.Lemmas.Families
import Verif.Witness

/-!
# C01-C06: arithmetic and simplification of scalar expressions

Value theorems hold for every linearly ordered field; structure theorems for every `GoNum R`.
The full statements of C01-C06 (no condition on the terms) are false; the negations are proved here
with concrete witnesses.  The positive theorems carry the condition `RearrFree D` on the exponent
vectors that occur, or are unconditional for expressions of degree at most two.
-/

namespace Verif

open MvPolynomial

section Structure

variable {R : Type} [GoNum R]

/-- C01/C43, structure (every number type, IEEE included): `Plus` on well-formed operands does not
panic, its result is well formed and mentions only variables of the operands. -/
theorem plus_total {a b : Scalar R} (ha : a.Canon) (hb : b.Canon) :
    ∃ r, a.plus b = .ok r ∧ r.Canon ∧ ∀ v, r.Mentions v → a.Mentions v ∨ b.Mentions v := by
  obtain ⟨r, h1, h2⟩ := Scalar.plus_good
    (good_mentions ha a.termsIn_univ (Q := fun v => a.Mentions v ∨ b.Mentions v)
      (fun _ h => Or.inl h))
    (good_mentions hb b.termsIn_univ (fun _ h => Or.inr h))
  rw [good_iff] at h2
  exact ⟨r, h1, h2.1, h2.2.2⟩

/-- C02/C43, structure of `Multiply`. -/
theorem mul_total {a b : Scalar R} (ha : a.Canon) (hb : b.Canon) :
    ∃ r, a.mul b = .ok r ∧ r.Canon ∧ ∀ v, r.Mentions v → a.Mentions v ∨ b.Mentions v := by
  obtain ⟨r, h1, h2⟩ := Scalar.mul_good prodIn_univ
    (good_mentions ha a.termsIn_univ (Q := fun v => a.Mentions v ∨ b.Mentions v)
      (fun _ h => Or.inl h))
    (good_mentions hb b.termsIn_univ (fun _ h => Or.inr h))
  rw [good_iff] at h2
  exact ⟨r, h1, h2.1, h2.2.2⟩

/-- C03/C43, structure of `Minus`. -/
theorem minus_total {a b : Scalar R} (ha : a.Canon) (hb : b.Canon) :
    ∃ r, a.minus b = .ok r ∧ r.Canon ∧ ∀ v, r.Mentions v → a.Mentions v ∨ b.Mentions v := by
  obtain ⟨r, h1, h2⟩ := Scalar.minus_good
    (good_mentions ha a.termsIn_univ (Q := fun v => a.Mentions v ∨ b.Mentions v)
      (fun _ h => Or.inl h))
    (good_mentions hb b.termsIn_univ (fun _ h => Or.inr h))
  rw [good_iff] at h2
  exact ⟨r, h1, h2.1, h2.2.2⟩

/-- C04/C43, structure of `Power` with a non-negative exponent. -/
theorem power_total {a : Scalar R} (ha : a.Canon) {n : Int} (hn : 0 ≤ n) :
    ∃ r, a.power n = .ok r ∧ r.Canon ∧ ∀ v, r.Mentions v → a.Mentions v := by
  obtain ⟨r, h1, h2⟩ := Scalar.power_good
    (good_mentions ha a.termsIn_univ (Q := a.Mentions) (fun _ h => h)) hn
  rw [good_iff] at h2
  exact ⟨r, h1, h2.1, h2.2.2⟩

/-- C04: a negative exponent is rejected, for every well-formed base. -/
theorem power_negative {a : Scalar R} (ha : a.Canon) {n : Int} (hn : n < 0) :
    a.power n = .error .negExponent := by
  unfold Scalar.power
  rw [(good_of_univ ha).check, Go.ok_bind, if_pos hn]
  rfl

/-- C06/C43, structure: simplification does not panic, keeps well-formedness and adds no
variable. -/
theorem asSimplified_total {a : Scalar R} (ha : a.Canon) :
    ∃ r, a.asSimplified = .ok r ∧ r.Canon ∧ ∀ v, r.Mentions v → a.Mentions v := by
  obtain ⟨r, h1, h2⟩ := Scalar.asSimplified_good
    (good_mentions ha a.termsIn_univ (Q := a.Mentions) (fun _ h => h))
  rw [good_iff] at h2
  exact ⟨r, h1, h2.1, h2.2.2⟩

end Structure

section Value

variable {R : Type} [Field R] [LinearOrder R]

/-- From the lemma-level postcondition to the specification. -/
private theorem spec_of {D : Set (ℕ →₀ ℕ)} {f : MvPolynomial ℕ R} {x : Go (Scalar R)}
    (h : Go.Ok x (GoodDen (fun _ => True) D f)) :
    ∃ r, x = .ok r ∧ r.Canon ∧ r.TermsIn D ∧ r.den = f := by
  obtain ⟨r, h1, h2, h3⟩ := h
  rw [good_iff] at h2
  exact ⟨r, h1, h2.1, h2.2.1, h3⟩

/-! ## C01 -/

/-- C01 for operands whose terms come from a rearrangement-free set.  Missing with respect to C01:
operands that contain two different terms with the same variables and the same multiset of
exponents, such as `x^2*y` and `x*y^2`, for which the claim is false (`plus_false`). -/
theorem plus_denotes_sum_partial {D : Set (ℕ →₀ ℕ)} (hD : RearrFree D) {a b : Scalar R}
    (ha : a.Canon) (hb : b.Canon) (ta : a.TermsIn D) (tb : b.TermsIn D) :
    ∃ r, a.plus b = .ok r ∧ r.Canon ∧ r.TermsIn D ∧ r.den = a.den + b.den :=
  spec_of (Scalar.plus_den hD (good_of ha ta) (good_of hb tb))

/-- C01 for expressions of degree at most two, without further condition. -/
theorem plus_denotes_sum_deg_two {a b : Scalar R} (ha : a.Canon) (hb : b.Canon)
    (ta : a.TermsIn (degLE 2)) (tb : b.TermsIn (degLE 2)) :
    ∃ r, a.plus b = .ok r ∧ r.Canon ∧ r.TermsIn (degLE 2) ∧ r.den = a.den + b.den :=
  plus_denotes_sum_partial rearrFree_degLE_two ha hb ta tb

/-- C01 for multilinear expressions of any degree. -/
theorem plus_denotes_sum_multilinear {a b : Scalar R} (ha : a.Canon) (hb : b.Canon)
    (ta : a.TermsIn multilin) (tb : b.TermsIn multilin) :
    ∃ r, a.plus b = .ok r ∧ r.Canon ∧ r.TermsIn multilin ∧ r.den = a.den + b.den :=
  plus_denotes_sum_partial rearrFree_multilin ha hb ta tb

/-- C01 for expressions in one variable, of any degree. -/
theorem plus_denotes_sum_univariate (x : ℕ) {a b : Scalar R} (ha : a.Canon) (hb : b.Canon)
    (ta : a.TermsIn (univ1 x)) (tb : b.TermsIn (univ1 x)) :
    ∃ r, a.plus b = .ok r ∧ r.Canon ∧ r.TermsIn (univ1 x) ∧ r.den = a.den + b.den :=
  plus_denotes_sum_partial (rearrFree_univ1 x) ha hb ta tb

/-- C01 read at an assignment `ρ`. -/
theorem plus_value_partial {D : Set (ℕ →₀ ℕ)} (hD : RearrFree D) {a b : Scalar R}
    (ha : a.Canon) (hb : b.Canon) (ta : a.TermsIn D) (tb : b.TermsIn D) (ρ : ℕ → R) :
    ∃ r, a.plus b = .ok r ∧ r.value ρ = a.value ρ + b.value ρ := by
  obtain ⟨r, h1, -, -, h4⟩ := plus_denotes_sum_partial hD ha hb ta tb
  exact ⟨r, h1, by unfold Scalar.value; rw [h4, map_add]⟩

/-! ## C02 -/

/-- C02 for operands whose products come from a rearrangement-free set.  Missing: products with
clashing terms, for which the claim is false (`mul_false`). -/
theorem mul_denotes_product_partial {D1 D2 D3 : Set (ℕ →₀ ℕ)} (h : ProdIn D1 D2 D3)
    (hD : RearrFree D3) {a b : Scalar R} (ha : a.Canon) (hb : b.Canon) (ta : a.TermsIn D1)
    (tb : b.TermsIn D2) :
    ∃ r, a.mul b = .ok r ∧ r.Canon ∧ r.TermsIn D3 ∧ r.den = a.den * b.den :=
  spec_of (Scalar.mul_den h hD (good_of ha ta) (good_of hb tb))

/-- C02 for two affine expressions, without further condition: the product is quadratic. -/
theorem mul_denotes_product_affine {a b : Scalar R} (ha : a.Canon) (hb : b.Canon)
    (ta : a.TermsIn (degLE 1)) (tb : b.TermsIn (degLE 1)) :
    ∃ r, a.mul b = .ok r ∧ r.Canon ∧ r.TermsIn (degLE 2) ∧ r.den = a.den * b.den :=
  mul_denotes_product_partial (prodIn_degLE 1 1) rearrFree_degLE_two ha hb ta tb

/-- C02 for expressions in one variable, of any degree. -/
theorem mul_denotes_product_univariate (x : ℕ) {a b : Scalar R} (ha : a.Canon) (hb : b.Canon)
    (ta : a.TermsIn (univ1 x)) (tb : b.TermsIn (univ1 x)) :
    ∃ r, a.mul b = .ok r ∧ r.Canon ∧ r.TermsIn (univ1 x) ∧ r.den = a.den * b.den :=
  mul_denotes_product_partial (prodIn_univ1 x) (rearrFree_univ1 x) ha hb ta tb

/-- C02 when neither operand is a polynomial: constants, variables and monomials of any degree, in
any number of variables, without condition. -/
theorem mul_denotes_product_nonpoly {a b : Scalar R} (ha : a.Canon) (hb : b.Canon)
    (na : ∀ p, a ≠ .poly p) (nb : ∀ p, b ≠ .poly p) :
    ∃ r, a.mul b = .ok r ∧ r.Canon ∧ (∀ p, r ≠ .poly p) ∧ r.den = a.den * b.den :=
  Scalar.mul_den_nonpoly ha hb na nb

/-! ## C03 -/

/-- C03 for operands whose terms come from a rearrangement-free set.  Missing: operands with
clashing terms (`minus_false`). -/
theorem minus_denotes_difference_partial {D : Set (ℕ →₀ ℕ)} (hD : RearrFree D) {a b : Scalar R}
    (ha : a.Canon) (hb : b.Canon) (ta : a.TermsIn D) (tb : b.TermsIn D) :
    ∃ r, a.minus b = .ok r ∧ r.Canon ∧ r.TermsIn D ∧ r.den = a.den - b.den :=
  spec_of (Scalar.minus_den hD (good_of ha ta) (good_of hb tb))

/-- C03 for expressions of degree at most two, without further condition. -/
theorem minus_denotes_difference_deg_two {a b : Scalar R} (ha : a.Canon) (hb : b.Canon)
    (ta : a.TermsIn (degLE 2)) (tb : b.TermsIn (degLE 2)) :
    ∃ r, a.minus b = .ok r ∧ r.Canon ∧ r.TermsIn (degLE 2) ∧ r.den = a.den - b.den :=
  minus_denotes_difference_partial rearrFree_degLE_two ha hb ta tb

/-- C03: `a.Minus(a)` denotes zero. -/
theorem minus_self_partial {D : Set (ℕ →₀ ℕ)} (hD : RearrFree D) {a : Scalar R}
    (ha : a.Canon) (ta : a.TermsIn D) : ∃ r, a.minus a = .ok r ∧ r.den = 0 := by
  obtain ⟨r, h1, -, -, h4⟩ := minus_denotes_difference_partial hD ha ha ta ta
  exact ⟨r, h1, by rw [h4, sub_self]⟩

/-! ## C04 -/

/-- C04 for bases whose powers come from a rearrangement-free set.  Missing: clashing terms
(`power_false`). -/
theorem power_denotes_power_partial {D : Set (ℕ →₀ ℕ)} {a : Scalar R} (ha : a.Canon)
    (ta : a.TermsIn D) {n : Int} (hn : 0 ≤ n) (hD : RearrFree {d | NSum D n.toNat d}) :
    ∃ r, a.power n = .ok r ∧ r.Canon ∧ r.TermsIn {d | NSum D n.toNat d} ∧
      r.den = a.den ^ n.toNat :=
  spec_of (Scalar.power_den (good_of ha ta) hn hD)

/-- C04 for expressions in one variable: every power, without further condition. -/
theorem power_denotes_power_univariate (x : ℕ) {a : Scalar R} (ha : a.Canon)
    (ta : a.TermsIn (univ1 x)) {n : Int} (hn : 0 ≤ n) :
    ∃ r, a.power n = .ok r ∧ r.Canon ∧ r.TermsIn (univ1 x) ∧ r.den = a.den ^ n.toNat := by
  obtain ⟨r, h1, h2, h3, h4⟩ := power_denotes_power_partial ha ta hn
    ((rearrFree_univ1 x).mono (nsum_univ1 x n.toNat))
  exact ⟨r, h1, h2, h3.mono (nsum_univ1 x n.toNat), h4⟩

/-- C04 for the square of an affine expression in any number of variables. -/
theorem power_denotes_square_affine {a : Scalar R} (ha : a.Canon) (ta : a.TermsIn (degLE 1)) :
    ∃ r, a.power 2 = .ok r ∧ r.Canon ∧ r.TermsIn (degLE 2) ∧ r.den = a.den ^ 2 := by
  have hs := nsum_degLE 1 2
  obtain ⟨r, h1, h2, h3, h4⟩ := power_denotes_power_partial ha ta (n := 2) (by decide)
    (rearrFree_degLE_two.mono hs)
  exact ⟨r, h1, h2, h3.mono hs, h4⟩

/-- C04 when the base is not a polynomial: every power, without condition. -/
theorem power_denotes_power_nonpoly {a : Scalar R} (ha : a.Canon) (na : ∀ p, a ≠ .poly p)
    {n : Int} (hn : 0 ≤ n) :
    ∃ r, a.power n = .ok r ∧ r.Canon ∧ (∀ p, r ≠ .poly p) ∧ r.den = a.den ^ n.toNat :=
  Scalar.power_den_nonpoly ha na hn

/-! ## C05 -/

/-- C05, additive laws: commutativity, associativity, neutral element, inverse.  Partial: terms
from a rearrangement-free set. -/
theorem additive_laws_partial {D : Set (ℕ →₀ ℕ)} (hD : RearrFree D) {a b c : Scalar R}
    (ha : a.Canon) (hb : b.Canon) (hc : c.Canon) (ta : a.TermsIn D) (tb : b.TermsIn D)
    (tc : c.TermsIn D) :
    (∃ r s, a.plus b = .ok r ∧ b.plus a = .ok s ∧ r.den = s.den) ∧
    (∃ ab bc r s, a.plus b = .ok ab ∧ b.plus c = .ok bc ∧ ab.plus c = .ok r ∧ a.plus bc = .ok s ∧
      r.den = s.den) ∧
    (∃ r, a.plus (.k 0) = .ok r ∧ r.den = a.den) ∧
    (∃ n r, a.mul (.k (-1)) = .ok n ∧ a.plus n = .ok r ∧ r.den = 0) := by
  obtain ⟨ab, ab1, ab2, ab3, ab4⟩ := plus_denotes_sum_partial hD ha hb ta tb
  obtain ⟨ba, ba1, ba2, ba3, ba4⟩ := plus_denotes_sum_partial hD hb ha tb ta
  obtain ⟨bc, bc1, bc2, bc3, bc4⟩ := plus_denotes_sum_partial hD hb hc tb tc
  obtain ⟨l, l1, -, -, l4⟩ := plus_denotes_sum_partial hD ab2 hc ab3 tc
  obtain ⟨r, r1, -, -, r4⟩ := plus_denotes_sum_partial hD ha bc2 ta bc3
  obtain ⟨z, z1, -, -, z4⟩ := plus_denotes_sum_partial hD ha (b := .k 0) trivial ta trivial
  obtain ⟨n, n1, n2, n3, n4⟩ :=
    mul_denotes_product_partial (prodIn_const D) hD ha (b := .k (-1)) trivial ta trivial
  obtain ⟨y, y1, -, -, y4⟩ := plus_denotes_sum_partial hD ha n2 ta n3
  refine ⟨⟨ab, ba, ab1, ba1, by rw [ab4, ba4, add_comm]⟩,
    ⟨ab, bc, l, r, ab1, bc1, l1, r1, by rw [l4, r4, ab4, bc4, add_assoc]⟩,
    ⟨z, z1, by rw [z4]; simp⟩, ⟨n, y, n1, y1, by rw [y4, n4]; simp⟩⟩

/-- C05, multiplicative laws: commutativity, neutral element, distributivity.  Partial: products
from a rearrangement-free set (which includes all affine operands). -/
theorem multiplicative_laws_partial {D1 D2 D3 : Set (ℕ →₀ ℕ)} (h : ProdIn D1 D2 D3)
    (hD : RearrFree D3) {a b c : Scalar R} (ha : a.Canon) (hb : b.Canon) (hc : c.Canon)
    (ta : a.TermsIn D1) (tb : b.TermsIn D2) (tc : c.TermsIn D2) :
    (∃ r s, a.mul b = .ok r ∧ b.mul a = .ok s ∧ r.den = s.den) ∧
    (∃ r, a.mul (.k 1) = .ok r ∧ r.den = a.den) ∧
    (∃ bc ab ac r s, b.plus c = .ok bc ∧ a.mul b = .ok ab ∧ a.mul c = .ok ac ∧
      a.mul bc = .ok r ∧ ab.plus ac = .ok s ∧ r.den = s.den) := by
  obtain ⟨ab, ab1, ab2, ab3, ab4⟩ := mul_denotes_product_partial h hD ha hb ta tb
  obtain ⟨ba, ba1, ba2, ba3, ba4⟩ := mul_denotes_product_partial h.symm hD hb ha tb ta
  obtain ⟨ac, ac1, ac2, ac3, ac4⟩ := mul_denotes_product_partial h hD ha hc ta tc
  obtain ⟨o, o1, -, -, o4⟩ := mul_denotes_product_partial (prodIn_const D1) (hD.mono h.left) ha
    (b := .k 1) trivial ta trivial
  obtain ⟨bc, bc1, bc2, bc3, bc4⟩ := plus_denotes_sum_partial (hD.mono h.right) hb hc tb tc
  obtain ⟨r, r1, -, -, r4⟩ := mul_denotes_product_partial h hD ha bc2 ta bc3
  obtain ⟨s, s1, -, -, s4⟩ := plus_denotes_sum_partial hD ab2 ac2 ab3 ac3
  exact ⟨⟨ab, ba, ab1, ba1, by rw [ab4, ba4, mul_comm]⟩, ⟨o, o1, by rw [o4]; simp⟩,
    ⟨bc, ab, ac, r, s, bc1, ab1, ac1, r1, s1, by rw [r4, s4, bc4, ab4, ac4, mul_add]⟩⟩

/-- C05, associativity of `Multiply`, for expressions in one variable. -/
theorem mul_assoc_univariate (x : ℕ) {a b c : Scalar R} (ha : a.Canon) (hb : b.Canon)
    (hc : c.Canon) (ta : a.TermsIn (univ1 x)) (tb : b.TermsIn (univ1 x))
    (tc : c.TermsIn (univ1 x)) :
    ∃ ab bc r s, a.mul b = .ok ab ∧ b.mul c = .ok bc ∧ ab.mul c = .ok r ∧ a.mul bc = .ok s ∧
      r.den = s.den := by
  obtain ⟨ab, ab1, ab2, ab3, ab4⟩ := mul_denotes_product_univariate x ha hb ta tb
  obtain ⟨bc, bc1, bc2, bc3, bc4⟩ := mul_denotes_product_univariate x hb hc tb tc
  obtain ⟨r, r1, -, -, r4⟩ := mul_denotes_product_univariate x ab2 hc ab3 tc
  obtain ⟨s, s1, -, -, s4⟩ := mul_denotes_product_univariate x ha bc2 ta bc3
  exact ⟨ab, bc, r, s, ab1, bc1, r1, s1, by rw [r4, s4, ab4, bc4, mul_assoc]⟩

/-! ## C06 -/

/-- C06 for terms from a rearrangement-free set.  Missing: clashing terms
(`asSimplified_false`). -/
theorem asSimplified_denotes_same_partial {D : Set (ℕ →₀ ℕ)} (hD : RearrFree D) {a : Scalar R}
    (ha : a.Canon) (ta : a.TermsIn D) :
    ∃ r, a.asSimplified = .ok r ∧ r.Canon ∧ r.TermsIn D ∧ r.den = a.den :=
  spec_of (Scalar.asSimplified_den hD ⟨good_of ha ta, rfl⟩)

/-- C06 for `Polynomial.Simplify`. -/
theorem simplify_denotes_same_partial {D : Set (ℕ →₀ ℕ)} (hD : RearrFree D) {p : Poly R}
    (hp : p.Canon) (tp : (Scalar.poly p).TermsIn D) :
    ∃ q, p.simplify = .ok q ∧ q.Canon ∧ (Scalar.poly q).TermsIn D ∧ q.den = p.den := by
  have hg : Good (fun _ => True) D (.poly p) := good_of (s := .poly p) hp tp
  obtain ⟨q, h1, h2⟩ := Poly.simplify_ok hg.1 hg.2
  have := (good_iff (s := Scalar.poly q)).mp h2
  exact ⟨q, h1, this.1, this.2.1, Poly.simplify_den hD hg.1 hg.2 h1⟩

end Value
end Verif
