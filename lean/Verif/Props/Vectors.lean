import Verif.Lemmas.ArrDen
import Verif.WitnessArray

/-!
# C24, C25: addition and scaling of vectors

A vector of length `n` denotes a matrix with one column.  As for scalars, the value theorems carry the
condition `RearrFree D` on the terms.
-/

namespace Verif

open MvPolynomial

variable {n : ℕ}

section Structure

variable {R : Type} [GoNum R]

/-- C24, structure: the sum of two vectors of the same length, of any kinds and over any number type,
has that length and is well formed. -/
theorem vec_plus_vec_total {a b : Vec R} (hn : 0 < n) (ha : (Expr.v a).Canon)
    (hsa : (Expr.v a).Shape n 1) (hb : (Expr.v b).Canon) (hsb : (Expr.v b).Shape n 1) :
    ∃ e, (Expr.v a).plus (.v b) = .ok e ∧ e.Shape n 1 ∧ e.Canon ∧
      ∀ v, e.Mentions v → (Expr.v a).Mentions v ∨ (Expr.v b).Mentions v := by
  have h1 := egood_of hsa ha (P := fun v => (Expr.v a).Mentions v ∨ (Expr.v b).Mentions v)
    fun _ h => Or.inl h
  have h2 := egood_of hsb hb (P := fun v => (Expr.v a).Mentions v ∨ (Expr.v b).Mentions v)
    fun _ h => Or.inr h
  obtain ⟨e, h3, h4, -⟩ := Vec.plus_vec_ok hn (earr_v_iff.mp h1) (fun _ _ h => h.check)
    (earr_v_iff.mp h2) (fun _ _ h => h.check) (fun _ _ => stable_good)
    fun _ _ _ _ hx hy => Scalar.plus_good hx hy
  exact ⟨e, h3, egood_spec h4⟩

/-- C24, structure: the sum of a vector and a scalar. -/
theorem vec_plus_scalar_total {a : Vec R} {s : Scalar R} (hn : 0 < n) (ha : (Expr.v a).Canon)
    (hsa : (Expr.v a).Shape n 1) (hs : s.Canon) :
    ∃ e, (Expr.v a).plus (.s s) = .ok e ∧ e.Shape n 1 ∧ e.Canon ∧
      ∀ v, e.Mentions v → (Expr.v a).Mentions v ∨ s.Mentions v := by
  have h1 := egood_of hsa ha (P := fun v => (Expr.v a).Mentions v ∨ s.Mentions v)
    fun _ h => Or.inl h
  have h2 := good_mentions hs s.termsIn_univ (Q := fun v => (Expr.v a).Mentions v ∨ s.Mentions v)
    fun _ h => Or.inr h
  obtain ⟨e, h3, h4, -⟩ := Vec.plus_scalar_ok hn (earr_v_iff.mp h1) (fun _ _ h => h.check)
    h2.check (fun _ _ => stable_good) fun _ _ _ hx => Scalar.plus_good hx h2
  exact ⟨e, h3, egood_spec h4⟩

/-- C25, structure: scaling. -/
theorem vec_mul_scalar_total {a : Vec R} {s : Scalar R} (hn : 0 < n) (ha : (Expr.v a).Canon)
    (hsa : (Expr.v a).Shape n 1) (hs : s.Canon)
    (hk : (∃ l, a = .p l) → (∃ c, s = .k c) ∨ ∃ q, s = .poly q) :
    ∃ e, (Expr.v a).mul (.s s) = .ok e ∧ e.Shape n 1 ∧ e.Canon ∧
      ∀ v, e.Mentions v → (Expr.v a).Mentions v ∨ s.Mentions v := by
  have h1 := egood_of hsa ha (P := fun v => (Expr.v a).Mentions v ∨ s.Mentions v)
    fun _ h => Or.inl h
  have h2 := good_mentions hs s.termsIn_univ (Q := fun v => (Expr.v a).Mentions v ∨ s.Mentions v)
    fun _ h => Or.inr h
  obtain ⟨e, h3, h4, -⟩ := Vec.mulScalar_ok hn (earr_v_iff.mp h1) (fun _ _ h => h.check)
    h2.check hk (fun _ _ => stable_good) fun _ _ _ hx => Scalar.mul_good prodIn_univ hx h2
  exact ⟨e, h3, egood_spec h4⟩

/-- C24: well-formed vectors of different lengths, both other than one, are rejected. -/
theorem vec_plus_dimension {a b : Vec R} {m : ℕ} (hn : 0 < n) (hm : 0 < m) (ha : (Expr.v a).Canon)
    (hsa : (Expr.v a).Shape n 1) (hb : (Expr.v b).Canon) (hsb : (Expr.v b).Shape m 1)
    (hne : n ≠ m) (hn1 : n ≠ 1) (hm1 : m ≠ 1) :
    (Expr.v a).plus (.v b) = .error .dimension := by
  have h1 := earr_v_iff.mp (egood_of hsa ha (P := fun _ => True) fun _ _ => trivial)
  have h2 := earr_v_iff.mp (egood_of hsb hb (P := fun _ => True) fun _ _ => trivial)
  have hd : checkDimAdd (n, 1) (m, 1) = .error .dimension := by
    simp [checkDimAdd, isScalarDims, hne, hn1, hm1, Go.throw_eq]
  show Vec.plus a (.v b) = _
  unfold Vec.plus
  simp only [h1.check hn (fun _ _ h => h.check), h1.dims hn (fun _ _ h => h.check), Expr.check,
    h2.check hm (fun _ _ h => h.check), Expr.dims, h2.dims hm (fun _ _ h => h.check), Go.ok_bind, hd]
  rfl

end Structure

section Value

variable {R : Type} [Field R] [LinearOrder R] {D D1 D2 D3 : Set (ℕ →₀ ℕ)}
  {M N : Matrix (Fin n) (Fin 1) (MvPolynomial ℕ R)}

/-- C24, partial (terms in a rearrangement-free family): the sum of two vectors of the same length. -/
theorem vec_plus_vec_partial {a b : Vec R} (hD : RearrFree D) (hn : 0 < n)
    (ha : (Expr.v a).Canon) (ta : (Expr.v a).TermsIn D) (da : (Expr.v a).Denotes M)
    (hb : (Expr.v b).Canon) (tb : (Expr.v b).TermsIn D) (db : (Expr.v b).Denotes N) :
    ∃ e, (Expr.v a).plus (.v b) = .ok e ∧ e.Canon ∧ e.TermsIn D ∧ e.Denotes (M + N) := by
  refine eden_ok (f := fun i _ => extM M i 0 + extM N i 0) (Vec.plus_vec_ok hn
    (earr_v_iff.mp (eden_of ha ta da)) (fun _ _ => goodDen_check)
    (earr_v_iff.mp (eden_of hb tb db)) (fun _ _ => goodDen_check) (fun _ _ => stable_goodDen hD _)
    fun _ _ _ _ hx hy => goodDen_plus hD hx hy) fun i j => ?_
  obtain rfl : j = 0 := Subsingleton.elim _ _
  rw [Matrix.add_apply, ← extM_fin M, ← extM_fin N]
  rfl

/-- C24, partial: a scalar is added to every entry. -/
theorem vec_plus_scalar_partial {a : Vec R} {s : Scalar R} (hD : RearrFree D) (hn : 0 < n)
    (ha : (Expr.v a).Canon) (ta : (Expr.v a).TermsIn D) (da : (Expr.v a).Denotes M)
    (hs : s.Canon) (ts : s.TermsIn D) :
    ∃ e, (Expr.v a).plus (.s s) = .ok e ∧ e.Canon ∧ e.TermsIn D ∧
      e.Denotes (M + Matrix.of fun _ _ => s.den) := by
  have h2 : GoodDen (fun _ => True) D s.den s := ⟨good_of hs ts, rfl⟩
  refine eden_ok (f := fun i _ => extM M i 0 + s.den) (Vec.plus_scalar_ok hn
    (earr_v_iff.mp (eden_of ha ta da)) (fun _ _ => goodDen_check) h2.1.check
    (fun _ _ => stable_goodDen hD _) fun _ _ _ hx => goodDen_plus hD hx h2) fun i j => ?_
  obtain rfl : j = 0 := Subsingleton.elim _ _
  rw [Matrix.add_apply, ← extM_fin M]
  rfl

/-- C24, partial: a scalar that is not a monomial plus a vector. -/
theorem scalar_plus_vec_partial {a : Vec R} {s : Scalar R} (hD : RearrFree D) (hn : 0 < n)
    (ha : (Expr.v a).Canon) (ta : (Expr.v a).TermsIn D) (da : (Expr.v a).Denotes M)
    (hs : s.Canon) (ts : s.TermsIn D) (hk : ∀ m, s ≠ .mono m) :
    ∃ e, (Expr.s s).plus (.v a) = .ok e ∧ e.Canon ∧ e.TermsIn D ∧
      e.Denotes (Matrix.of (fun _ _ => s.den) + M) := by
  have h2 : GoodDen (fun _ => True) D s.den s := ⟨good_of hs ts, rfl⟩
  have h1 := earr_v_iff.mp (eden_of ha ta da)
  have hsum := Vec.plus_scalar_ok (Q := fun i => GoodDen (fun _ => True) D (s.den + extM M i 0)) hn h1
    (fun _ _ => goodDen_check) h2.1.check
    (fun _ _ => stable_goodDen hD _) fun i x _ hx => by
      have := goodDen_plus hD hx h2
      rwa [add_comm] at this
  refine eden_ok (f := fun i _ => s.den + extM M i 0)
    (Q := fun e => VKind n e) ?_ fun i j => ?_
  · cases s with
    | k c =>
      show Go.Ok (a.check >>= fun _ => a.plus (.s (.k c))) _
      rw [h1.check hn (fun _ _ => goodDen_check), Go.ok_bind]
      exact hsum
    | var v =>
      show Go.Ok (v.check >>= fun _ => a.plus (.s (.var v)) >>= Expr.asSimplified) _
      rw [show v.check = .ok () from h2.1.check, Go.ok_bind]
      exact Go.Ok.bind hsum fun e he => simp_v hn (fun _ _ => stable_goodDen hD _) he
    | mono m => exact absurd rfl (hk m)
    | poly p =>
      exact Poly.plus_vec_ok hn h2.1.check h1 (fun _ _ => goodDen_check)
        (fun _ _ => stable_goodDen hD _) fun i x _ hx => goodDen_plus hD (x := .poly p) h2 hx
  · obtain rfl : j = 0 := Subsingleton.elim _ _
    rw [Matrix.add_apply, ← extM_fin M]
    rfl

/-- C25, partial: every entry is multiplied by the scalar. -/
theorem vec_mul_scalar_partial {a : Vec R} {s : Scalar R} (hp : ProdIn D1 D2 D3) (hD : RearrFree D3)
    (hn : 0 < n) (ha : (Expr.v a).Canon) (ta : (Expr.v a).TermsIn D1) (da : (Expr.v a).Denotes M)
    (hs : s.Canon) (ts : s.TermsIn D2)
    (hk : (∃ l, a = .p l) → (∃ c, s = .k c) ∨ ∃ q, s = .poly q) :
    ∃ e, (Expr.v a).mul (.s s) = .ok e ∧ e.Canon ∧ e.TermsIn D3 ∧ e.Denotes (s.den • M) := by
  have h2 : GoodDen (fun _ => True) D2 s.den s := ⟨good_of hs ts, rfl⟩
  refine eden_ok (f := fun i _ => extM M i 0 * s.den) (Vec.mulScalar_ok hn
    (earr_v_iff.mp (eden_of ha ta da)) (fun _ _ => goodDen_check) h2.1.check hk
    (fun _ _ => stable_goodDen hD _) fun _ _ _ hx => goodDen_mul hp hD hx h2) fun i j => ?_
  obtain rfl : j = 0 := Subsingleton.elim _ _
  rw [Matrix.smul_apply, ← extM_fin M, smul_eq_mul, mul_comm]
  rfl

/-- C25, partial: a variable or polynomial times a vector. -/
theorem scalar_mul_vec_partial {a : Vec R} {s : Scalar R} (hp : ProdIn D1 D2 D3) (hD : RearrFree D3)
    (hn : 0 < n) (ha : (Expr.v a).Canon) (ta : (Expr.v a).TermsIn D1) (da : (Expr.v a).Denotes M)
    (hs : s.Canon) (ts : s.TermsIn D2) (hk : (∃ v, s = .var v) ∨ ∃ q, s = .poly q) :
    ∃ e, (Expr.s s).mul (.v a) = .ok e ∧ e.Canon ∧ e.TermsIn D3 ∧ e.Denotes (s.den • M) := by
  have h2 : GoodDen (fun _ => True) D2 s.den s := ⟨good_of hs ts, rfl⟩
  have h1 := earr_v_iff.mp (eden_of ha ta da)
  refine eden_ok (f := fun i _ => extM M i 0 * s.den) (Q := fun e => VKind n e) ?_ fun i j => ?_
  · rcases hk with ⟨v, rfl⟩ | ⟨q, rfl⟩
    · exact Var.mulVec_ok hn (Var.check_iff.mp h2.1.check) h1 (fun _ _ => goodDen_check)
        (fun _ _ => stable_goodDen hD _) fun _ _ _ hx => goodDen_mul hp hD hx h2
    · show Go.Ok (q.check >>= fun _ => a.check >>= fun _ =>
        a.mulScalar (.poly q) >>= Expr.asSimplified) _
      rw [show q.check = .ok () from h2.1.check, Go.ok_bind,
        h1.check hn (fun _ _ => goodDen_check), Go.ok_bind]
      exact Go.Ok.bind (Vec.mulScalar_ok hn h1 (fun _ _ => goodDen_check) h2.1.check
        (fun _ => Or.inr ⟨q, rfl⟩) (fun _ _ => stable_goodDen hD _)
        fun _ _ _ hx => goodDen_mul hp hD hx h2) fun e he =>
          simp_v hn (fun _ _ => stable_goodDen hD _) he
  · obtain rfl : j = 0 := Subsingleton.elim _ _
    rw [Matrix.smul_apply, ← extM_fin M, smul_eq_mul, mul_comm]
    rfl

/-- C03 for vectors, partial: the difference of two vectors of the same length. -/
theorem vec_minus_vec_partial {a b : Vec R} (hD : RearrFree D) (hn : 0 < n)
    (ha : (Expr.v a).Canon) (ta : (Expr.v a).TermsIn D) (da : (Expr.v a).Denotes M)
    (hb : (Expr.v b).Canon) (tb : (Expr.v b).TermsIn D) (db : (Expr.v b).Denotes N) :
    ∃ e, (Expr.v a).minus (.v b) = .ok e ∧ e.Canon ∧ e.TermsIn D ∧ e.Denotes (M - N) := by
  refine eden_ok (f := fun i _ => extM M i 0 + -extM N i 0) (Vec.minus_vec_ok hn
    (earr_v_iff.mp (eden_of ha ta da)) (fun _ _ => goodDen_check)
    (earr_v_iff.mp (eden_of hb tb db)) (fun _ _ => goodDen_check) (fun _ _ => stable_goodDen hD _)
    (fun _ _ => stable_goodDen hD _) (fun _ _ _ hx => goodDen_neg hD hx)
    fun _ _ _ _ hx hy => goodDen_plus hD hx hy) fun i j => ?_
  obtain rfl : j = 0 := Subsingleton.elim _ _
  rw [Matrix.sub_apply, ← extM_fin M, ← extM_fin N, sub_eq_add_neg]
  rfl

/-- C03 for vectors, partial: a scalar is subtracted from every entry. -/
theorem vec_minus_scalar_partial {a : Vec R} {s : Scalar R} (hD : RearrFree D) (hn : 0 < n)
    (ha : (Expr.v a).Canon) (ta : (Expr.v a).TermsIn D) (da : (Expr.v a).Denotes M)
    (hs : s.Canon) (ts : s.TermsIn D) :
    ∃ e, (Expr.v a).minus (.s s) = .ok e ∧ e.Canon ∧ e.TermsIn D ∧
      e.Denotes (M - Matrix.of fun _ _ => s.den) := by
  have h2 : GoodDen (fun _ => True) D s.den s := ⟨good_of hs ts, rfl⟩
  refine eden_ok (f := fun i _ => extM M i 0 + -s.den) (Vec.minus_scalar_ok hn
    (earr_v_iff.mp (eden_of ha ta da)) (fun _ _ => goodDen_check) h2.1.check (stable_goodDen hD _)
    (fun _ _ => stable_goodDen hD _) (goodDen_neg hD h2)
    fun _ _ _ _ hx hy => goodDen_plus hD hx hy) fun i j => ?_
  obtain rfl : j = 0 := Subsingleton.elim _ _
  rw [Matrix.sub_apply, ← extM_fin M, sub_eq_add_neg]
  rfl

/-! ### Unconditional for entries of degree at most two -/

/-- C24 for vectors of entries of degree at most two. -/
theorem vec_plus_vec_deg_two {a b : Vec R} (hn : 0 < n)
    (ha : (Expr.v a).Canon) (ta : (Expr.v a).TermsIn (degLE 2)) (da : (Expr.v a).Denotes M)
    (hb : (Expr.v b).Canon) (tb : (Expr.v b).TermsIn (degLE 2)) (db : (Expr.v b).Denotes N) :
    ∃ e, (Expr.v a).plus (.v b) = .ok e ∧ e.Canon ∧ e.TermsIn (degLE 2) ∧ e.Denotes (M + N) :=
  vec_plus_vec_partial rearrFree_degLE_two hn ha ta da hb tb db

/-- C25 for affine entries and an affine scalar. -/
theorem vec_mul_scalar_affine {a : Vec R} {s : Scalar R}
    (hn : 0 < n) (ha : (Expr.v a).Canon) (ta : (Expr.v a).TermsIn (degLE 1))
    (da : (Expr.v a).Denotes M) (hs : s.Canon) (ts : s.TermsIn (degLE 1))
    (hk : (∃ l, a = .p l) → (∃ c, s = .k c) ∨ ∃ q, s = .poly q) :
    ∃ e, (Expr.v a).mul (.s s) = .ok e ∧ e.Canon ∧ e.TermsIn (degLE 2) ∧ e.Denotes (s.den • M) :=
  vec_mul_scalar_partial (prodIn_degLE 1 1) rearrFree_degLE_two hn ha ta da hs ts hk

end Value

/-! ## Counterexamples -/

/-- The full statement of C24 is false for a monomial on the left: `Monomial.Plus` does not accept
vectors. -/
theorem mono_plus_vec_false :
    (Expr.s (.mono (wm1 2 0 1))).plus (.v wVv) = .error .unsupported := by decide +kernel

/-- C24 fails for vectors of different lengths when one of them has length one: `(x) + (y, z)` is
computed as the scalar `x + y`, no error is reported and `z` is lost. -/
theorem vec_plus_length_one_false :
    (Expr.v (.v [wx])).plus (.v (.v [wy, wz])) =
      .ok (.s (.poly ⟨[wm1 1 0 1, wm1 1 1 1]⟩)) := by decide +kernel

/-- C24: the other way round, `(x, y) + (z)` panics with an index error instead of broadcasting or
reporting a dimension error. -/
theorem vec_plus_length_one_panics :
    (Expr.v (.v [wx, wy])).plus (.v (.v [wz])) = .error .index := by decide +kernel

/-- C25 fails for a `PolynomialVector` and a `Variable` or `Monomial`. -/
theorem polyvec_mul_var_false :
    (Expr.v wVp).mul (.s (.var wx)) = .error .unsupported ∧
    (Expr.v wVp).mul (.s (.mono (wm1 2 0 1))) = .error .unsupported := by decide +kernel

/-- C25 fails for a constant or a monomial on the left. -/
theorem k_mul_vec_false :
    (Expr.s (.k 2)).mul (.v wVv) = .error .unsupported ∧
    (Expr.s (.mono (wm1 2 0 1))).mul (.v wVv) = .error .unsupported := by decide +kernel

/-- A constant vector of length one times a longer vector of variables drops every entry after the
first: `(2) * (x, y)` is computed as `2x`. -/
theorem kvec_one_mul_vec_false :
    (Expr.v (.k [2])).mul (.v wVv) = .ok (.s (.mono (wm1 2 0 1))) := by decide +kernel

/-! ## Examples -/

example : ∃ e, (Expr.v wVv).plus (.v wVk) = .ok e ∧ e.Canon ∧ e.TermsIn (degLE 2) ∧
    e.Denotes (!![X 0; X 1] + !![C 2; C 3]) :=
  vec_plus_vec_deg_two (by decide) (Expr.okDeg_canon 2 (by decide +kernel))
    (Expr.okDeg_terms (by decide +kernel)) wVv_denotes
    (Expr.okDeg_canon 2 (by decide +kernel)) (Expr.okDeg_terms (by decide +kernel)) wVk_denotes

example : ∃ e, (Expr.v wVm).plus (.v wVp) = .ok e ∧ e.Shape 2 1 ∧ e.Canon ∧
    ∀ v, e.Mentions v → (Expr.v wVm).Mentions v ∨ (Expr.v wVp).Mentions v :=
  vec_plus_vec_total (by decide) (Expr.okDeg_canon 2 (by decide +kernel)) (by decide)
    (Expr.okDeg_canon 2 (by decide +kernel)) (by decide)

example : ∃ e, (Expr.v wVv).mul (.s (.poly ⟨[wm1 1 0 1, wm0 5]⟩)) = .ok e ∧ e.Canon ∧
    e.TermsIn (degLE 2) ∧
    e.Denotes ((Scalar.poly ⟨[wm1 1 0 1, wm0 5]⟩).den • !![(X 0 : MvPolynomial ℕ ℚ); X 1]) :=
  vec_mul_scalar_affine (by decide) (Expr.okDeg_canon 1 (by decide +kernel))
    (Expr.okDeg_terms (by decide +kernel)) wVv_denotes
    (Scalar.okDeg_spec (n := 1) (by decide +kernel)).1 (Scalar.okDeg_spec (by decide +kernel)).2
    (by rintro ⟨l, h⟩; cases h)

example : (Expr.v wVv).plus (.v (.v [wx, wy, wz])) = .error .dimension :=
  vec_plus_dimension (n := 2) (m := 3) (by decide) (by decide) (Expr.okDeg_canon 1 (by decide +kernel)) (by decide)
    (Expr.okDeg_canon 1 (by decide +kernel)) (by decide) (by decide) (by decide) (by decide)

/-- `(3x, 2xy) - (x + 5, 2y)` has the entries `2x - 5` and `2xy - 2y`. -/
example : (Expr.v wVm).minus (.v wVp) = .ok (.v (.p [⟨[wm0 (-5), wm1 2 0 1]⟩,
    ⟨[wm1 (-2) 1 1, wm2 2 0 1 1 1]⟩])) := by decide +kernel

end Verif
