import Verif.SpecConstraint
import Verif.WitnessArray

/-!
# Deciding satisfaction of concrete constraints

`value` is not computable because Mathlib's polynomials are not.  `evalAt` is, and it is proved equal.
-/

namespace Verif

open MvPolynomial

variable {R : Type} [CommSemiring R]

/-- Computable value of a monomial. -/
def Mono.evalAt (ρ : ℕ → R) (m : Mono R) : R :=
  m.coeff * ((m.vars.zip m.exps).map (fun ve => ρ ve.1.id ^ ve.2.toNat)).prod

/-- Computable value of a scalar expression. -/
def Scalar.evalAt (ρ : ℕ → R) : Scalar R → R
  | .k c => c
  | .var v => ρ v.id
  | .mono m => m.evalAt ρ
  | .poly p => (p.monos.map (Mono.evalAt ρ)).sum

theorem Mono.eval_den (ρ : ℕ → R) (m : Mono R) : eval ρ m.den = m.evalAt ρ := by
  rw [Mono.den_eq_prod, map_mul, eval_C, map_list_prod, List.map_map]
  simp [Mono.evalAt, Function.comp_def]

theorem Scalar.value_eq_evalAt (ρ : ℕ → R) (s : Scalar R) : s.value ρ = s.evalAt ρ := by
  cases s with
  | k c => simp [Scalar.value, Scalar.evalAt, Scalar.den]
  | var v => simp [Scalar.value, Scalar.evalAt, Scalar.den]
  | mono m => exact Mono.eval_den ρ m
  | poly p =>
    show eval ρ (p.monos.map Mono.den).sum = _
    rw [map_list_sum, List.map_map]
    simp [Scalar.evalAt, Function.comp_def, Mono.eval_den]

instance (s : Sense) (a b : ℚ) : Decidable (s.Holds a b) := by
  cases s <;> unfold Sense.Holds <;> infer_instance

instance (ρ : ℕ → ℚ) (c : SCon ℚ) : Decidable (c.Sat ρ) :=
  decidable_of_iff (c.sense.Holds (c.lhs.evalAt ρ) (c.rhs.evalAt ρ))
    (by rw [← Scalar.value_eq_evalAt, ← Scalar.value_eq_evalAt]; rfl)

instance (ρ : ℕ → ℚ) (c : Con ℚ) : Decidable (c.Sat ρ) :=
  decidable_of_iff
    (List.Forall₂ (List.Forall₂ (fun a b => c.sense.Holds (a.evalAt ρ) (b.evalAt ρ)))
      c.left.grid c.right.grid)
    (by simp only [← Scalar.value_eq_evalAt]; rfl)

/-- Computable test: well formed, with terms of degree at most `n`. -/
def SCon.okDeg (n : ℕ) (c : SCon ℚ) : Bool :=
  c.lhs.okDeg n && c.rhs.okDeg n && decide (c.sense = .eq ∨ c.sense = .le ∨ c.sense = .ge)

theorem SCon.okDeg_spec {n : ℕ} {c : SCon ℚ} (h : c.okDeg n = true) :
    c.Canon ∧ c.TermsIn (degLE n) := by
  simp only [SCon.okDeg, Bool.and_eq_true, decide_eq_true_eq] at h
  obtain ⟨⟨h1, h2⟩, h3⟩ := h
  exact ⟨⟨(Scalar.okDeg_spec h1).1, (Scalar.okDeg_spec h2).1, h3⟩,
    ⟨(Scalar.okDeg_spec h1).2, (Scalar.okDeg_spec h2).2⟩⟩

end Verif
