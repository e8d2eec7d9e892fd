import Mathlib.Data.Matrix.Mul
import Mathlib.Data.List.OfFn
import Verif.Model.Array
import Verif.Spec

/-!
# Specification of vectors and matrices

A vector or matrix expression denotes a Mathlib matrix of multivariate polynomials.  As in
`Verif.Spec`, only the data types of the model are used.
-/

namespace Verif

open MvPolynomial

variable {R : Type}

/-- The entries of an expression as rows: a scalar is a 1 by 1 array, a vector one column. -/
def Expr.grid : Expr R → List (List (Scalar R))
  | .s a => [[a]]
  | .v a => a.entries.map (fun x => [x])
  | .m a => a.entries

/-- `r` rows of length `c`. -/
def Expr.Shape (e : Expr R) (r c : ℕ) : Prop := e.grid.length = r ∧ ∀ row ∈ e.grid, row.length = c

/-- Every entry satisfies `Q`. -/
def Expr.All (Q : Scalar R → Prop) (e : Expr R) : Prop := ∀ row ∈ e.grid, ∀ a ∈ row, Q a

/-- Every entry is well formed. -/
def Expr.Canon [GoNum R] (e : Expr R) : Prop := e.All Scalar.Canon

/-- Every entry has its terms in `D`. -/
def Expr.TermsIn (D : Set (ℕ →₀ ℕ)) (e : Expr R) : Prop := e.All (Scalar.TermsIn D)

/-- The variable `v` is written in some entry. -/
def Expr.Mentions (e : Expr R) (v : Var R) : Prop := ∃ row ∈ e.grid, ∃ a ∈ row, a.Mentions v

/-- The entry in row `i` and column `j`. -/
def Expr.entry (e : Expr R) (i j : ℕ) : Option (Scalar R) := (e.grid[i]?).bind (·[j]?)

/-- The polynomials denoted by the entries, as rows. -/
noncomputable def Expr.denGrid [CommSemiring R] (e : Expr R) : List (List (MvPolynomial ℕ R)) :=
  e.grid.map (fun row => row.map Scalar.den)

/-- `e` is an `r` by `c` array whose entries denote the entries of `M`. -/
def Expr.Denotes [CommSemiring R] (e : Expr R) {r c : ℕ}
    (M : Matrix (Fin r) (Fin c) (MvPolynomial ℕ R)) : Prop :=
  e.grid.map (fun row => row.map Scalar.den) = List.ofFn fun i => List.ofFn fun j => M i j

end Verif
