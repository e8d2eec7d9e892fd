import Mathlib.Algebra.MvPolynomial.PDeriv
import Mathlib.Algebra.MvPolynomial.Variables
import Mathlib.Algebra.Order.Field.Basic
import Verif.Model.Scalar

/-!
# Specification

The meaning of expressions, stated with Mathlib's multivariate polynomials and independently of the
functions of the model.  Only the *data types* of the model are used here.
-/

namespace Verif

open MvPolynomial

/-- Exact arithmetic: `float64` idealised as a linearly ordered field. -/
instance exactNum (R : Type) [Field R] [LinearOrder R] : GoNum R where
  zero := 0
  one := 1
  add := (· + ·)
  mul := (· * ·)
  sub := (· - ·)
  div := (· / ·)
  neg := fun x => -x
  ofInt := fun n => (n : R)
  feq := fun a b => decide (a = b)
  lt := fun a b => decide (a < b)
  le := fun a b => decide (a ≤ b)

variable {R : Type}

/-! ## Well-formedness -/

/-- A valid variable: the bounds are in order, exactly what `Variable.Check` accepts. -/
def Var.OK [GoNum R] (v : Var R) : Prop := GoNum.le v.upper v.lower = false

/-- A well-formed monomial: one exponent per factor, positive exponents, factors with pairwise
different IDs, valid variables. -/
structure Mono.Canon [GoNum R] (m : Mono R) : Prop where
  len : m.exps.length = m.vars.length
  pos : ∀ e ∈ m.exps, 0 < e
  nodup : (m.vars.map (·.id)).Nodup
  ok : ∀ v ∈ m.vars, v.OK

/-- A well-formed polynomial. -/
structure Poly.Canon [GoNum R] (p : Poly R) : Prop where
  ne : p.monos ≠ []
  all : ∀ m ∈ p.monos, m.Canon

/-- A well-formed scalar expression. -/
def Scalar.Canon [GoNum R] : Scalar R → Prop
  | .k _ => True
  | .var v => v.OK
  | .mono m => m.Canon
  | .poly p => p.Canon

/-! ## Denotation -/

/-- The exponent vector of a monomial. -/
noncomputable def Mono.degs (m : Mono R) : ℕ →₀ ℕ :=
  ((m.vars.zip m.exps).map (fun ve => Finsupp.single ve.1.id ve.2.toNat)).sum

section
variable [CommSemiring R]

/-- `c * x₁^e₁ * ... * xₙ^eₙ` -/
noncomputable def Mono.den (m : Mono R) : MvPolynomial ℕ R := monomial m.degs m.coeff

/-- The sum of the terms. -/
noncomputable def Poly.den (p : Poly R) : MvPolynomial ℕ R := (p.monos.map Mono.den).sum

/-- The polynomial denoted by a scalar expression. -/
noncomputable def Scalar.den : Scalar R → MvPolynomial ℕ R
  | .k c => C c
  | .var v => X v.id
  | .mono m => m.den
  | .poly p => p.den

/-- `Mono.den` is the textbook product. -/
theorem Mono.den_eq_prod (m : Mono R) :
    m.den = C m.coeff * ((m.vars.zip m.exps).map (fun ve => X ve.1.id ^ ve.2.toNat)).prod := by
  have h : ∀ l : List (Var R × Int),
      monomial ((l.map (fun ve => Finsupp.single ve.1.id ve.2.toNat)).sum) (1 : R) =
        (l.map (fun ve => (X ve.1.id : MvPolynomial ℕ R) ^ ve.2.toNat)).prod := by
    intro l
    induction l with
    | nil => simp
    | cons a l ih =>
      rw [List.map_cons, List.sum_cons, List.map_cons, List.prod_cons, ← ih, X_pow_eq_monomial,
        monomial_mul, one_mul]
  rw [← h, C_mul_monomial, mul_one]
  rfl

/-- The value of a scalar expression at an assignment of the variables (by ID). -/
noncomputable def Scalar.value (ρ : ℕ → R) (e : Scalar R) : R := MvPolynomial.eval ρ e.den

end

/-! ## Rearrangement-free sets of exponent vectors -/

/-- `d` and `d'` have the same variables and the same multiset of exponents. -/
def Rearr (d d' : ℕ →₀ ℕ) : Prop :=
  d.support = d'.support ∧ d.support.val.map d = d'.support.val.map d'

/-- No two different members of `D` are rearrangements of each other. -/
def RearrFree (D : Set (ℕ →₀ ℕ)) : Prop := ∀ d ∈ D, ∀ d' ∈ D, Rearr d d' → d = d'

/-- All terms that are syntactically present have their exponent vector in `D`
(constant terms are always allowed). -/
def Scalar.TermsIn (D : Set (ℕ →₀ ℕ)) : Scalar R → Prop
  | .k _ => True
  | .var v => Finsupp.single v.id 1 ∈ D
  | .mono m => m.vars = [] ∨ m.degs ∈ D
  | .poly p => ∀ m ∈ p.monos, m.vars = [] ∨ m.degs ∈ D

/-- The variable `v` (the whole struct) is written somewhere in the expression. -/
def Scalar.Mentions : Scalar R → Var R → Prop
  | .k _, _ => False
  | .var w, v => v = w
  | .mono m, v => v ∈ m.vars
  | .poly p, v => ∃ m ∈ p.monos, v ∈ m.vars

/-- Products of terms of `D1` and terms of `D2` are terms of `D3`; a term may also be multiplied by
a constant. -/
structure ProdIn (D1 D2 D3 : Set (ℕ →₀ ℕ)) : Prop where
  left : D1 ⊆ D3
  right : D2 ⊆ D3
  add : ∀ d ∈ D1, ∀ d' ∈ D2, d + d' ∈ D3

/-- Sums of at least one and at most `n` members of `D`. -/
inductive NSum (D : Set (ℕ →₀ ℕ)) : ℕ → (ℕ →₀ ℕ) → Prop
  | one {n d} (hd : d ∈ D) : NSum D (n + 1) d
  | add {n d d'} (h : NSum D n d) (hd : d' ∈ D) : NSum D (n + 1) (d + d')

/-- Sums of at most `n` members of `D` (`0` included). -/
def SumsUpTo (D : Set (ℕ →₀ ℕ)) (n : ℕ) (d : ℕ →₀ ℕ) : Prop :=
  ∃ l : List (ℕ →₀ ℕ), l.length ≤ n ∧ (∀ x ∈ l, x ∈ D) ∧ l.sum = d

/-- The exponent vectors that can appear while the variables of a term with exponent vector `e` are
replaced, when the replacement of variable `i` has terms in `T i`. -/
def SubstTerms (T : ℕ → Set (ℕ →₀ ℕ)) (e : ℕ →₀ ℕ) : Set (ℕ →₀ ℕ) :=
  {d | ∃ g : ℕ → ℕ →₀ ℕ, (∀ i ∈ e.support, SumsUpTo (T i) (e i) (g i)) ∧ ∑ i ∈ e.support, g i = d}

/-- The exponent vectors written in an expression. -/
def Scalar.HasTerm : Scalar R → (ℕ →₀ ℕ) → Prop
  | .k _, _ => False
  | .var v, d => d = Finsupp.single v.id 1
  | .mono m, d => d = m.degs
  | .poly p, d => ∃ m ∈ p.monos, d = m.degs

/-- Exponent vectors whose non-zero exponents are all equal, such as those of `x`, `x^5`, `x*y` and
`x^2*y^2`. -/
def flat : Set (ℕ →₀ ℕ) := {d | ∀ i ∈ d.support, ∀ j ∈ d.support, d i = d j}

/-- No constant and no first-degree term is written twice.  `Simplify` establishes this
(`simplify_lowDistinct`). -/
def Scalar.LowDistinct : Scalar R → Prop
  | .poly p => p.monos.Pairwise (fun a b => a.degs = b.degs → 1 < a.degs.sum fun _ e => e)
  | _ => True

/-- Exponent vectors of total degree at most `n`. -/
def degLE (n : ℕ) : Set (ℕ →₀ ℕ) := {d | (d.sum fun _ e => e) ≤ n}

/-- Exponent vectors in the single variable `x`. -/
def univ1 (x : ℕ) : Set (ℕ →₀ ℕ) := {d | d.support ⊆ {x}}

/-- Exponent vectors with all exponents at most one. -/
def multilin : Set (ℕ →₀ ℕ) := {d | ∀ i, d i ≤ 1}

end Verif
