import Mathlib.LinearAlgebra.Matrix.Notation
import Verif.SpecArray
import Verif.Witness

/-!
# Concrete vectors and matrices over `ℚ`, used by the `example`s and the counterexamples

`okDeg n` is a computable test for "well formed and of degree at most `n`".
-/

namespace Verif

open MvPolynomial

/-- Computable test: well formed, exponents adding up to at most `n`. -/
def Mono.okDeg (n : ℕ) (m : Mono ℚ) : Bool :=
  decide (m.exps.length = m.vars.length) && m.exps.all (fun e => decide (0 < e)) &&
  decide ((m.vars.map (·.id)).Nodup) && m.vars.all (fun v => !GoNum.le v.upper v.lower) &&
  decide ((m.exps.map Int.toNat).sum ≤ n)

/-- Computable test for scalars. -/
def Scalar.okDeg (n : ℕ) : Scalar ℚ → Bool
  | .k _ => true
  | .var v => !GoNum.le v.upper v.lower && decide (1 ≤ n)
  | .mono m => m.okDeg n
  | .poly p => decide (p.monos.length ≠ 0) && p.monos.all (Mono.okDeg n)

/-- Computable test for expressions. -/
def Expr.okDeg (n : ℕ) (e : Expr ℚ) : Bool := e.grid.all (fun row => row.all (Scalar.okDeg n))

theorem sum_le_of_list (l : List (Var ℚ × ℤ)) :
    ((l.map (fun ve => Finsupp.single ve.1.id ve.2.toNat)).sum.sum fun _ e => e) ≤
      (l.map (fun ve => ve.2.toNat)).sum := by
  induction l with
  | nil => simp
  | cons a t ih =>
    simp only [List.map_cons, List.sum_cons]
    rw [Finsupp.sum_add_index' (by simp) (by simp), Finsupp.sum_single_index rfl]
    omega

theorem Mono.okDeg_spec {n : ℕ} {m : Mono ℚ} (h : m.okDeg n = true) :
    m.Canon ∧ m.degs ∈ degLE n := by
  unfold Mono.okDeg at h
  simp only [Bool.and_eq_true, decide_eq_true_eq, List.all_eq_true, Bool.not_eq_true'] at h
  obtain ⟨⟨⟨⟨h1, h2⟩, h3⟩, h4⟩, h5⟩ := h
  refine ⟨⟨h1, h2, h3, h4⟩, ?_⟩
  refine le_trans (sum_le_of_list _) (le_trans (le_of_eq ?_) h5)
  have : (m.vars.zip m.exps).map (fun ve => ve.2.toNat) =
      ((m.vars.zip m.exps).map Prod.snd).map Int.toNat := by simp
  rw [this, List.map_snd_zip (by omega)]

theorem Scalar.okDeg_spec {n : ℕ} {s : Scalar ℚ} (h : s.okDeg n = true) :
    s.Canon ∧ s.TermsIn (degLE n) := by
  cases s with
  | k c => exact ⟨trivial, trivial⟩
  | var v =>
    simp only [Scalar.okDeg, Bool.and_eq_true, Bool.not_eq_true', decide_eq_true_eq] at h
    refine ⟨h.1, ?_⟩
    show ((Finsupp.single v.id 1).sum fun _ e => e) ≤ n
    rw [Finsupp.sum_single_index rfl]
    exact h.2
  | mono m => exact ⟨(Mono.okDeg_spec h).1, Or.inr (Mono.okDeg_spec h).2⟩
  | poly p =>
    simp only [Scalar.okDeg, Bool.and_eq_true, decide_eq_true_eq, List.all_eq_true] at h
    refine ⟨⟨fun hn => h.1 (by rw [hn]; rfl), fun m hm => (Mono.okDeg_spec (h.2 m hm)).1⟩, ?_⟩
    exact fun m hm => Or.inr (Mono.okDeg_spec (h.2 m hm)).2

theorem Expr.okDeg_canon (n : ℕ) {e : Expr ℚ} (h : e.okDeg n = true) : e.Canon := by
  intro row hrow a ha
  exact (Scalar.okDeg_spec (List.all_eq_true.mp (List.all_eq_true.mp h row hrow) a ha)).1

theorem Expr.okDeg_terms {n : ℕ} {e : Expr ℚ} (h : e.okDeg n = true) : e.TermsIn (degLE n) := by
  intro row hrow a ha
  exact (Scalar.okDeg_spec (List.all_eq_true.mp (List.all_eq_true.mp h row hrow) a ha)).2

instance (e : Expr ℚ) (r c : ℕ) : Decidable (e.Shape r c) := by
  unfold Expr.Shape; infer_instance

/-- The vector of variables `(x, y)`. -/
def wVv : Vec ℚ := .v [wx, wy]
/-- The vector of monomials `(3x, 2xy)`. -/
def wVm : Vec ℚ := .m [wm1 3 0 1, wm2 2 0 1 1 1]
/-- The vector of polynomials `(x + 5, 2y)`. -/
def wVp : Vec ℚ := .p [⟨[wm1 1 0 1, wm0 5]⟩, ⟨[wm1 2 1 1]⟩]
/-- The vector of constants `(2, 3)`. -/
def wVk : Vec ℚ := .k [2, 3]

/-- The matrix of constants with rows `(1, 2)` and `(3, 4)`. -/
def wMk : Mat ℚ := .k [[1, 2], [3, 4]]
/-- The matrix of variables with rows `(x, y)` and `(y, z)`. -/
def wMv : Mat ℚ := .v [[wx, wy], [wy, wz]]
/-- The matrix of monomials with rows `(3x, 2y)` and `(z, 4)`. -/
def wMm : Mat ℚ := .m [[wm1 3 0 1, wm1 2 1 1], [wm1 1 2 1, wm0 4]]
/-- The matrix of polynomials with rows `(x + 5, 2y)` and `(1, z - y)`. -/
def wMp : Mat ℚ := .p [[⟨[wm1 1 0 1, wm0 5]⟩, ⟨[wm1 2 1 1]⟩], [⟨[wm0 1]⟩, ⟨[wm1 1 2 1, wm1 (-1) 1 1]⟩]]

theorem wVv_denotes : (Expr.v wVv).Denotes !![(X 0 : MvPolynomial ℕ ℚ); X 1] := by
  simp [Expr.Denotes, Expr.grid, wVv, Vec.entries, Scalar.den, wv, List.ofFn_succ]

theorem wVk_denotes : (Expr.v wVk).Denotes !![(C 2 : MvPolynomial ℕ ℚ); C 3] := by
  simp [Expr.Denotes, Expr.grid, wVk, Vec.entries, Scalar.den, List.ofFn_succ]

theorem wMv_denotes : (Expr.m wMv).Denotes !![(X 0 : MvPolynomial ℕ ℚ), X 1; X 1, X 2] := by
  simp [Expr.Denotes, Expr.grid, wMv, Mat.entries, Scalar.den, wv, List.ofFn_succ]

theorem wMk_denotes : (Expr.m wMk).Denotes !![(C 1 : MvPolynomial ℕ ℚ), C 2; C 3, C 4] := by
  simp [Expr.Denotes, Expr.grid, wMk, Mat.entries, Scalar.den, List.ofFn_succ]

/-- Every array of a given shape denotes some matrix. -/
theorem Expr.Shape.exists_denotes {R : Type} [CommSemiring R] {e : Expr R} {r c : ℕ}
    (h : e.Shape r c) : ∃ M : Matrix (Fin r) (Fin c) (MvPolynomial ℕ R), e.Denotes M := by
  obtain ⟨rfl, h2⟩ := h
  refine ⟨Matrix.of fun i j => (e.grid[i.1]'i.2)[j.1]'(by
    rw [h2 _ (List.getElem_mem i.2)]; exact j.2) |>.den, ?_⟩
  unfold Expr.Denotes
  refine List.ext_getElem (by simp) fun i hi hi' => ?_
  simp only [List.getElem_map, List.getElem_ofFn]
  refine List.ext_getElem ?_ fun j hj hj' => ?_
  · simpa using h2 _ (List.getElem_mem _)
  · simp

end Verif
