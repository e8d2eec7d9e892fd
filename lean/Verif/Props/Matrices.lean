import Verif.Lemmas.ArrDen
import Verif.Props.NormalForm
import Verif.WitnessArray

/-!
# C26, C42: matrix products

A matrix expression denotes a Mathlib matrix of polynomials; `*` below is the matrix product of
Mathlib.
-/

namespace Verif

open MvPolynomial

variable {r s c : ℕ}

/-- A polynomial with at least two terms is only denoted by a `Polynomial`. -/
theorem SmallestKind.poly_of_two {R : Type} [Field R] [LinearOrder R] {a : Scalar R}
    (h : SmallestKind a) (h2 : 2 ≤ a.den.support.card) : ∃ p, a = .poly p := by
  cases a with
  | k c =>
    have : (Scalar.k c).den.support ⊆ {0} := by
      show (C c : MvPolynomial ℕ R).support ⊆ _
      rw [C_apply]
      exact support_monomial_subset
    have := (Finset.card_le_card this).trans (Finset.card_singleton _).le
    omega
  | var v =>
    have : (Scalar.var v).den.support ⊆ {Finsupp.single v.id 1} := support_monomial_subset
    have := (Finset.card_le_card this).trans (Finset.card_singleton _).le
    omega
  | mono m =>
    have : (Scalar.mono m).den.support ⊆ {m.degs} := support_monomial_subset
    have := (Finset.card_le_card this).trans (Finset.card_singleton _).le
    omega
  | poly p => exact ⟨p, rfl⟩

section Structure

variable {R : Type} [GoNum R]

/-- C26, structure (every number type): the product of matrices of any kinds with matching inner
dimension has the expected shape and is well formed. -/
theorem mat_mul_total {a b : Mat R} (hr : 0 < r) (hs : 0 < s) (hc : 0 < c) (ha : (Expr.m a).Canon)
    (sa : (Expr.m a).Shape r s) (hb : (Expr.m b).Canon) (sb : (Expr.m b).Shape s c) :
    ∃ e, (Expr.m a).mul (.m b) = .ok e ∧ e.Shape r c ∧ e.Canon ∧
      ∀ v, e.Mentions v → (Expr.m a).Mentions v ∨ (Expr.m b).Mentions v := by
  have h1 := egood_of sa ha (P := fun v => (Expr.m a).Mentions v ∨ (Expr.m b).Mentions v)
    fun _ h => Or.inl h
  have h2 := egood_of sb hb (P := fun v => (Expr.m a).Mentions v ∨ (Expr.m b).Mentions v)
    fun _ h => Or.inr h
  obtain ⟨e, h3, h4, -⟩ := Mat.mul_mat_ok hr hs hc (earr_m_iff.mp h1) (fun _ _ _ h => h.check)
    (earr_m_iff.mp h2) (fun _ _ _ h => h.check)
    (I := fun _ _ _ => Good (fun v => (Expr.m a).Mentions v ∨ (Expr.m b).Mentions v) Set.univ)
    (fun _ _ _ _ => trivial) (fun _ _ _ _ => stable_good)
    fun _ _ _ _ _ _ _ _ _ hacc hx hy => (Scalar.mul_good prodIn_univ hx hy).mono
      fun _ ht => Scalar.plus_good hacc ht
  exact ⟨e, h3, egood_spec h4⟩

/-- C26: matrices whose inner dimensions differ are rejected. -/
theorem mat_mul_dimension {a b : Mat R} {s' : ℕ} (hr : 0 < r) (hs : 0 < s) (ha : (Expr.m a).Canon)
    (sa : (Expr.m a).Shape r s') (hb : (Expr.m b).Canon) (sb : (Expr.m b).Shape s c)
    (hne : s' ≠ s) : (Expr.m a).mul (.m b) = .error .dimension := by
  have h1 := earr_m_iff.mp (egood_of sa ha (P := fun _ => True) fun _ _ => trivial)
  have h2 := earr_m_iff.mp (egood_of sb hb (P := fun _ => True) fun _ _ => trivial)
  have c1 := h1.check hr fun _ _ _ h => h.check
  have c2 := h2.check hs fun _ _ _ h => h.check
  have d1 := h1.dims hr fun _ _ _ h => h.check
  have d2 := h2.dims hs fun _ _ _ h => h.check
  have ht : matMulTemplate a b = .error .dimension := by
    unfold matMulTemplate
    simp only [c1, c2, d1, d2, Go.ok_bind]
    rw [if_pos hne]
    rfl
  have hd : checkDimMul (r, s') (s, c) = .ok () ∨ checkDimMul (r, s') (s, c) = .error .dimension := by
    unfold checkDimMul
    split
    · left; rfl
    · right; rfl
  cases a with
  | k rows =>
    show kmMul rows (.m b) = _
    unfold kmMul
    simp only [Expr.check, c2, (Arr.map_iff.mp h1).rowDims hr, Expr.dims, d2, Go.ok_bind]
    rcases hd with hd | hd
    · simp only [hd, Go.ok_bind, ht, Go.err_bind]
    · simp only [hd, Go.err_bind]
  | v rows =>
    show vmMul rows (.m b) = _
    unfold vmMul
    simp only [c1, Expr.check, c2, (Arr.map_iff.mp h1).rowDims hr, Expr.dims, d2, Go.ok_bind]
    rcases hd with hd | hd
    · simp only [hd, Go.ok_bind, ht, Go.err_bind]
    · simp only [hd, Go.err_bind]
  | m rows =>
    show mmMul rows (.m b) = _
    unfold mmMul
    simp only [c1, Expr.check, c2, (Arr.map_iff.mp h1).rowDims hr, Expr.dims, d2, Go.ok_bind]
    rcases hd with hd | hd
    · simp only [hd, Go.ok_bind, ht]
    · simp only [hd, Go.err_bind]
  | p rows =>
    show pmMul rows (.m b) = _
    unfold pmMul
    simp only [c1, Expr.check, c2, (Arr.map_iff.mp h1).rowDims hr, Expr.dims, d2, Go.ok_bind]
    rcases hd with hd | hd
    · simp only [hd, Go.ok_bind, ht]
    · simp only [hd, Go.err_bind]

end Structure

section Value

variable {R : Type} [Field R] [LinearOrder R] {D D1 D2 D3 : Set (ℕ →₀ ℕ)}

/-- The partial sums of one entry of the product. -/
private noncomputable def psum (M : Matrix (Fin r) (Fin s) (MvPolynomial ℕ R))
    (N : Matrix (Fin s) (Fin c) (MvPolynomial ℕ R)) (i j k : ℕ) : MvPolynomial ℕ R :=
  ∑ l ∈ Finset.range k, extM M i l * extM N l j

private theorem psum_all (M : Matrix (Fin r) (Fin s) (MvPolynomial ℕ R))
    (N : Matrix (Fin s) (Fin c) (MvPolynomial ℕ R)) (i : Fin r) (j : Fin c) :
    psum M N i j s = (M * N) i j := by
  unfold psum
  rw [Matrix.mul_apply, Finset.sum_range]
  exact Finset.sum_congr rfl fun k _ => by rw [extM_fin, extM_fin]

private theorem psum_zero (M : Matrix (Fin r) (Fin s) (MvPolynomial ℕ R))
    (N : Matrix (Fin s) (Fin c) (MvPolynomial ℕ R)) (i j : ℕ) {P : Var R → Prop} :
    GoodDen P D (psum M N i j 0) (.k GoNum.zero) := by
  refine ⟨trivial, ?_⟩
  unfold psum
  rw [Finset.range_zero, Finset.sum_empty]
  exact C_0

private theorem psum_succ (M : Matrix (Fin r) (Fin s) (MvPolynomial ℕ R))
    (N : Matrix (Fin s) (Fin c) (MvPolynomial ℕ R)) (i j k : ℕ) :
    psum M N i j (k + 1) = psum M N i j k + extM M i k * extM N k j :=
  Finset.sum_range_succ ..

private theorem psum_one (M : Matrix (Fin r) (Fin s) (MvPolynomial ℕ R))
    (N : Matrix (Fin s) (Fin c) (MvPolynomial ℕ R)) (i j : ℕ) :
    psum M N i j 1 = extM M i 0 * extM N 0 j := by
  unfold psum
  rw [Finset.sum_range_one]

variable {M : Matrix (Fin r) (Fin s) (MvPolynomial ℕ R)}
  {N : Matrix (Fin s) (Fin c) (MvPolynomial ℕ R)}

/-- C26, partial (products of the entries in a rearrangement-free family): the product of matrices of
any kinds denotes the matrix product. -/
theorem mat_mul_partial {a b : Mat R} (hp : ProdIn D1 D2 D3) (hD : RearrFree D3)
    (hr : 0 < r) (hs : 0 < s) (hc : 0 < c)
    (ha : (Expr.m a).Canon) (ta : (Expr.m a).TermsIn D1) (da : (Expr.m a).Denotes M)
    (hb : (Expr.m b).Canon) (tb : (Expr.m b).TermsIn D2) (db : (Expr.m b).Denotes N) :
    ∃ e, (Expr.m a).mul (.m b) = .ok e ∧ e.Canon ∧ e.TermsIn D3 ∧ e.Denotes (M * N) := by
  refine eden_ok (f := fun i j => psum M N i j s) (Mat.mul_mat_ok hr hs hc
    (earr_m_iff.mp (eden_of ha ta da)) (fun _ _ _ => goodDen_check)
    (earr_m_iff.mp (eden_of hb tb db)) (fun _ _ _ => goodDen_check)
    (I := fun i j k => GoodDen (fun _ => True) D3 (psum M N i j k))
    (fun i j _ _ => psum_zero M N i j) (fun _ _ _ _ => stable_goodDen hD _)
    fun i j k acc x y _ _ _ hacc hx hy => (goodDen_mul hp hD hx hy).mono fun t ht => ?_)
    (psum_all M N)
  rw [psum_succ]
  exact goodDen_plus hD hacc ht

/-- C26 for affine entries: unconditional. -/
theorem mat_mul_affine {a b : Mat R} (hr : 0 < r) (hs : 0 < s) (hc : 0 < c)
    (ha : (Expr.m a).Canon) (ta : (Expr.m a).TermsIn (degLE 1)) (da : (Expr.m a).Denotes M)
    (hb : (Expr.m b).Canon) (tb : (Expr.m b).TermsIn (degLE 1)) (db : (Expr.m b).Denotes N) :
    ∃ e, (Expr.m a).mul (.m b) = .ok e ∧ e.Canon ∧ e.TermsIn (degLE 2) ∧ e.Denotes (M * N) :=
  mat_mul_partial (prodIn_degLE 1 1) rearrFree_degLE_two hr hs hc ha ta da hb tb db

/-- C26 for a constant matrix on the left and entries of degree at most two on the right. -/
theorem kmat_mul_deg_two {rows : List (List R)} {b : Mat R} (hr : 0 < r) (hs : 0 < s) (hc : 0 < c)
    (da : (Expr.m (.k rows)).Denotes M)
    (hb : (Expr.m b).Canon) (tb : (Expr.m b).TermsIn (degLE 2)) (db : (Expr.m b).Denotes N) :
    ∃ e, (Expr.m (.k rows)).mul (.m b) = .ok e ∧ e.Canon ∧ e.TermsIn (degLE 2) ∧
      e.Denotes (M * N) := by
  have hk : ∀ q : Scalar R → Prop, (∀ x, q (.k x)) → (Expr.m (.k rows)).All q := by
    intro q hq row hrow a ha
    obtain ⟨row', -, rfl⟩ := List.mem_map.mp hrow
    obtain ⟨x, -, rfl⟩ := List.mem_map.mp ha
    exact hq x
  exact mat_mul_partial (prodIn_degLE 0 2) rearrFree_degLE_two hr hs hc (hk _ fun _ => trivial)
    (hk _ fun _ => trivial) da hb tb db

/-! ### Matrix times vector -/

variable {W : Matrix (Fin s) (Fin 1) (MvPolynomial ℕ R)}

/-- C26, partial: a matrix of constants, variables or polynomials times a vector of variables.
The result is a scalar for a matrix with one row. -/
theorem mat_mul_varvec_partial {a : Mat R} {l : List (Var R)} (hp : ProdIn D1 D2 D3)
    (hD : RearrFree D3) (hr : 0 < r) (hs : 0 < s) (hk : ∀ rows, a ≠ .m rows)
    (ha : (Expr.m a).Canon) (ta : (Expr.m a).TermsIn D1) (da : (Expr.m a).Denotes M)
    (hb : (Expr.v (.v l)).Canon) (tb : (Expr.v (.v l)).TermsIn D2) (db : (Expr.v (.v l)).Denotes W) :
    ∃ e, (Expr.m a).mul (.v (.v l)) = .ok e ∧ e.Canon ∧ e.TermsIn D3 ∧ e.Denotes (M * W) ∧
      (r = 1 → ∃ t, e = .s t) := by
  have h1 := earr_m_iff.mp (eden_of ha ta da)
  have h2 := earr_v_iff.mp (eden_of hb tb db)
  have hcb : ∀ (i : ℕ) (x : Scalar R), GoodDen (fun _ => True) D2 (extM W i 0) x → x.check = .ok () :=
    fun _ _ => goodDen_check
  have hfin : ∀ (i : Fin r) (j : Fin 1), psum M W i 0 s = (M * W) i j := by
    intro i j
    obtain rfl : j = 0 := Subsingleton.elim _ _
    exact psum_all M W i 0
  refine eden_ok_kind (f := fun i _ => psum M W i 0 s) ?_ hfin
  have hstep : ∀ i k acc t, GoodDen (fun _ => True) D3 (psum M W i 0 k) acc →
      GoodDen (fun _ => True) D3 (extM M i k * extM W k 0) t →
      Go.Ok (acc.plus t) (GoodDen (fun _ => True) D3 (psum M W i 0 (k + 1))) := by
    intro i k acc t hacc ht
    rw [psum_succ]
    exact goodDen_plus hD hacc ht
  cases a with
  | k rows =>
    by_cases h : r = 1
    · subst h
      refine (kmMul_vec_one_ok hs h1 h2 hcb (I := fun k => GoodDen (fun _ => True) D3 (psum M W 0 0 k))
        (psum_zero M W 0 0) (stable_goodDen hD _) ?_).mono ?_
      · intro k acc x v _ hacc hx hv
        have := goodDen_mul hp.symm hD hv hx
        rw [mul_comm] at this
        exact this.mono fun t ht => hstep 0 k acc t hacc ht
      · rintro e ⟨t, rfl, ht⟩
        exact ⟨earr_s ht, fun _ => ⟨t, rfl⟩⟩
    · refine (kmMul_vec_ok (by omega) hs h1 h2 hcb
        (T := fun i k => GoodDen (fun _ => True) D3 (extM M i k * extM W k 0))
        (I := fun i k => GoodDen (fun _ => True) D3 (psum M W i 0 k))
        (fun i _ => psum_zero M W i 0) (fun _ _ _ _ => stable_goodDen hD _)
        (fun _ _ _ _ => stable_goodDen hD _) (fun _ _ _ _ _ _ hx hv => goodDen_mul hp hD hx hv)
        (fun i k acc t _ _ => hstep i k acc t)).mono fun e he => ⟨he.1, fun h' => absurd h' h⟩
  | v rows =>
    refine (vmMul_vec_ok hr hs h1 (fun _ _ _ => goodDen_check) h2 hcb
      (T := fun i k => GoodDen (fun _ => True) D3 (extM M i k * extM W k 0))
      (I := fun i k => GoodDen (fun _ => True) D3 (psum M W i 0 k))
      (fun _ _ _ _ => stable_goodDen hD _)
      (fun _ _ _ _ => stable_goodDen hD _) (fun _ _ _ _ _ _ hx hv => goodDen_mul hp hD hx hv)
      ?_ (fun i k acc t _ _ => hstep i k acc t)).mono fun e he => ⟨he.1, he.2.1⟩
    intro i t _ ht
    refine ⟨hstep i 0 _ t (psum_zero M W i 0) ht, ?_⟩
    have h0 := psum_zero (D := D3) M W i 0 (P := fun _ => True)
    have := goodDen_plus hD ht h0
    rwa [add_comm, ← psum_succ] at this
  | m rows => exact absurd rfl (hk rows)
  | p rows =>
    refine (pmMul_vec_ok hr hs h1 (fun _ _ _ => goodDen_check) h2 hcb
      (I := fun i k => GoodDen (fun _ => True) D3 (psum M W i 0 k))
      (fun i _ => psum_zero M W i 0) (fun _ _ => stable_goodDen hD _) ?_).mono
      fun e he => ⟨he.1, he.2.1⟩
    intro i k acc p v _ _ hacc hx hv
    exact (goodDen_mul (x := .poly p) (y := .var v) hp hD hx hv).mono
      fun t ht => hstep i k acc t hacc ht

/-- C26, partial: a matrix of variables times a vector of constants. -/
theorem varmat_mul_kvec_partial {rows : List (List (Var R))} {l : List R} (hD : RearrFree D)
    (hr : 0 < r) (hs : 0 < s)
    (ha : (Expr.m (.v rows)).Canon) (ta : (Expr.m (.v rows)).TermsIn D)
    (da : (Expr.m (.v rows)).Denotes M) (db : (Expr.v (.k l)).Denotes W) :
    ∃ e, (Expr.m (.v rows)).mul (.v (.k l)) = .ok e ∧ e.Canon ∧ e.TermsIn D ∧
      e.Denotes (M * W) := by
  have hk : ∀ q : Scalar R → Prop, (∀ x, q (.k x)) → (Expr.v (.k l)).All q := by
    intro q hq row hrow a ha
    obtain ⟨x, hx, rfl⟩ := List.mem_map.mp hrow
    obtain ⟨y, -, rfl⟩ := List.mem_map.mp hx
    obtain rfl := List.mem_singleton.mp ha
    exact hq y
  have h1 := earr_m_iff.mp (eden_of ha ta da)
  have h2 := earr_v_iff.mp (eden_of (D := ∅) (hk _ fun _ => trivial) (hk _ fun _ => trivial) db)
  refine eden_ok (f := fun i _ => psum M W i 0 s) (vmMul_kvec_ok hr h1 (fun _ _ _ => goodDen_check)
    h2 (I := fun i k => GoodDen (fun _ => True) D (psum M W i 0 k))
      (fun i _ => psum_zero M W i 0) (fun _ _ => stable_goodDen hD _) ?_) ?_
  · intro i k acc v x _ _ hacc hv hx
    refine (goodDen_mul (x := .var v) (y := .k x) (prodIn_const D) hD hv hx).mono fun t ht => ?_
    rw [psum_succ]
    exact goodDen_plus hD hacc ht
  · intro i j
    obtain rfl : j = 0 := Subsingleton.elim _ _
    exact psum_all M W i 0

/-- C26, partial: one row of monomials times a vector of variables. -/
theorem monomat_row_mul_varvec_partial {rows : List (List (Mono R))} {l : List (Var R)}
    (hp : ProdIn D1 D2 D3) (hD : RearrFree D3) (hs : 0 < s)
    {M : Matrix (Fin 1) (Fin s) (MvPolynomial ℕ R)}
    (ha : (Expr.m (.m rows)).Canon) (ta : (Expr.m (.m rows)).TermsIn D1)
    (da : (Expr.m (.m rows)).Denotes M)
    (hb : (Expr.v (.v l)).Canon) (tb : (Expr.v (.v l)).TermsIn D2) (db : (Expr.v (.v l)).Denotes W) :
    ∃ e, (Expr.m (.m rows)).mul (.v (.v l)) = .ok e ∧ e.Canon ∧ e.TermsIn D3 ∧
      e.Denotes (M * W) ∧ ∃ t, e = .s t := by
  have h1 := earr_m_iff.mp (eden_of ha ta da)
  have h2 := earr_v_iff.mp (eden_of hb tb db)
  refine eden_ok_kind (f := fun i _ => psum M W i 0 s) ((mmMul_vec_one_ok hs h1
    (fun _ _ _ => goodDen_check) h2 (fun _ _ => goodDen_check)
    (I := fun k => GoodDen (fun _ => True) D3 (psum M W 0 0 k))
    (psum_zero M W 0 0) (stable_goodDen hD _) ?_).mono ?_) ?_
  · intro k acc x v _ hacc hx hv
    refine (goodDen_mul (x := .mono x) (y := .var v) hp hD hx hv).mono fun t ht => ?_
    rw [psum_succ]
    exact goodDen_plus hD hacc ht
  · rintro e ⟨t, rfl, ht⟩
    exact ⟨earr_s ht, t, rfl⟩
  · intro i j
    obtain rfl : j = 0 := Subsingleton.elim _ _
    exact psum_all M W i 0

/-- C26, partial: several rows of monomials times a vector of variables.  The code asserts that every
partial sum of two or more products is a `Polynomial`, hence the hypothesis that those partial sums
have at least two terms; without it the call panics (`monomat_mul_varvec_panics`). -/
theorem monomat_mul_varvec_partial {rows : List (List (Mono R))} {l : List (Var R)}
    (hp : ProdIn D1 D2 D3) (hD : D3 ⊆ flat) (hr : 1 < r) (hs : 0 < s)
    (ha : (Expr.m (.m rows)).Canon) (ta : (Expr.m (.m rows)).TermsIn D1)
    (da : (Expr.m (.m rows)).Denotes M)
    (hb : (Expr.v (.v l)).Canon) (tb : (Expr.v (.v l)).TermsIn D2) (db : (Expr.v (.v l)).Denotes W)
    (hsum : ∀ (i : Fin r) (k : ℕ), 2 ≤ k → k ≤ s →
      2 ≤ (∑ j : Fin s, if j.1 < k then M i j * W j 0 else 0).support.card) :
    ∃ e, (Expr.m (.m rows)).mul (.v (.v l)) = .ok e ∧ e.Canon ∧ e.TermsIn D3 ∧
      e.Denotes (M * W) := by
  have h1 := earr_m_iff.mp (eden_of ha ta da)
  have h2 := earr_v_iff.mp (eden_of hb tb db)
  have hD' : RearrFree D3 := rearrFree_flat.mono hD
  have hps : ∀ (i : Fin r) (k : ℕ), k ≤ s →
      (∑ j : Fin s, if j.1 < k then M i j * W j 0 else 0) = psum M W i 0 k := by
    intro i k hk
    unfold psum
    have h3 : ∀ j : Fin s, (if j.1 < k then M i j * W j 0 else 0) =
        (fun l : ℕ => if l < k then extM M i l * extM W l 0 else 0) j := by
      intro j
      simp only []
      split
      · rw [← extM_fin M, ← extM_fin W]
        rfl
      · rfl
    rw [Finset.sum_congr rfl fun j _ => h3 j, ← Finset.sum_range
      (fun l : ℕ => if l < k then extM M i l * extM W l 0 else 0)]
    rw [← Finset.sum_filter]
    refine Finset.sum_congr ?_ fun _ _ => rfl
    ext x
    simp only [Finset.mem_filter, Finset.mem_range]
    omega
  refine eden_ok (f := fun i _ => psum M W i 0 s) (mmMul_vec_ok hr hs h1
    (fun _ _ _ => goodDen_check) h2 (fun _ _ => goodDen_check)
    (I := fun i k => GoodDen (fun _ => True) D3 (psum M W i 0 k))
    (fun _ _ => stable_goodDen hD' _) ?_ ?_) ?_
  · intro i x v _ hx hv
    rw [psum_one]
    exact goodDen_mul (x := .poly x.toPoly) (y := .var v) hp hD' ((stable_goodDen (hD'.mono hp.left) _).poly _ hx) hv
  · intro i k acc x v hi hk hacc hx hv
    refine (goodDen_mul (x := .poly x.toPoly) (y := .var v) hp hD'
      ((stable_goodDen (hD'.mono hp.left) _).poly _ hx) hv).mono fun t ht => ?_
    obtain ⟨u, h5, h6⟩ := goodDen_plus hD' hacc ht
    refine ⟨u, h5, by rw [psum_succ]; exact h6, ?_⟩
    have hac := good_iff.mp hacc.1
    have hac2 := good_iff.mp ht.1
    obtain ⟨u', h7, h8, h9⟩ := plus_smallest_partial hac.1 hac2.1 (hac.2.1.mono hD) (hac2.2.1.mono hD)
    rw [h5, Except.ok.injEq] at h7
    subst h7
    refine h9.poly_of_two ?_
    rw [h6.2, ← psum_succ, ← hps ⟨i, hi⟩ (k + 2) (by omega)]
    exact hsum ⟨i, hi⟩ (k + 2) (by omega) (by omega)
  · intro i j
    obtain rfl : j = 0 := Subsingleton.elim _ _
    exact psum_all M W i 0

/-! ### Matrix times scalar -/

variable {V : Matrix (Fin r) (Fin c) (MvPolynomial ℕ R)}

/-- Scaling by a constant, entrywise and with the kind of the result. -/
theorem Mat.mul_k_ok {a : Mat R} {d : R} {f : ℕ → ℕ → MvPolynomial ℕ R} (hD : RearrFree D) (hr : 0 < r)
    (hc : 0 < c) (h1 : MArr r c (fun i j => GoodDen (fun _ => True) D (f i j)) a)
    (hd : (∃ rows, a = .v rows) → d ≠ 0 ∧ d ≠ 1) :
    Go.Ok ((Expr.m a).mul (.s (.k d))) (fun e =>
      EArr r c (fun i j => GoodDen (fun _ => True) D (f i j * C d)) e ∧
      ((∀ ps, a ≠ .p ps) ∨ c ≠ 1 → ∃ m, e = .m m)) := by
  cases a with
  | k rows =>
    refine (kmMul_k_ok hr hc h1 d ?_).mono fun e he => ⟨he.1, fun _ => he.2.elim fun m hm => ⟨_, hm⟩⟩
    intro i j x _ _ hx
    refine ⟨trivial, ?_⟩
    rw [← hx.2]
    show C (d * x) = C x * C d
    rw [C_mul, mul_comm]
  | v rows =>
    refine (vmMul_k_ok hr h1 (fun _ _ _ => goodDen_check) (fun _ _ _ _ => stable_goodDen hD _)
      ?_).mono fun e he => ⟨he.1, fun _ => he.2⟩
    intro i j v _ _ hv
    obtain ⟨t, h2, h3⟩ := goodDen_mul (x := .var v) (y := .k d) (prodIn_const D) hD hv
      (⟨trivial, rfl⟩ : GoodDen (fun _ => True) ∅ (C d) (.k d))
    refine ⟨t, h2, h3, ?_⟩
    obtain ⟨hd0, hd1⟩ := hd ⟨rows, rfl⟩
    have hok : v.OK := hv.1.1
    have h4 : v.mul (.k d) = .ok (.mono ⟨d, [1], [v]⟩) := by
      simp [Var.mul, hok.check, Scalar.check, Go.pure_eq, Go.ok_bind, Scalar.asSimplified,
        Mono.asSimplified, Mono.check, Mono.isConstant, hd0, hd1]
    change v.mul (.k d) = _ at h2
    rw [h4, Except.ok.injEq] at h2
    exact ⟨_, h2.symm⟩
  | m rows =>
    refine (mmMul_k_ok hr h1 (fun _ _ _ => goodDen_check) ?_).mono fun e he =>
      ⟨he.1, fun _ => he.2⟩
    intro i j m _ _ hm
    refine ⟨Mono.mulK_good hm.1 d, ?_⟩
    rw [← hm.2]
    exact Mono.mulK_den m d
  | p rows =>
    refine (pmMul_k_ok hr hc h1 (fun _ _ _ => goodDen_check) (fun _ _ _ _ => stable_goodDen hD _)
      ?_).mono fun e he => ⟨he.1, fun h => he.2.2.2 (h.resolve_left fun h => h _ rfl)⟩
    intro i j p _ _ hx
    exact goodDen_mul (x := .poly p) (y := .k d) (prodIn_const D) hD hx
      (⟨trivial, rfl⟩ : GoodDen (fun _ => True) ∅ (C d) (.k d))

/-- C25 for matrices, partial: scaling by a constant.  A `VariableMatrix` needs a constant other than
0 and 1 (`varmat_mul_one_panics`). -/
theorem mat_mul_k_partial {a : Mat R} {d : R} (hD : RearrFree D) (hr : 0 < r) (hc : 0 < c)
    (ha : (Expr.m a).Canon) (ta : (Expr.m a).TermsIn D) (da : (Expr.m a).Denotes V)
    (hd : (∃ rows, a = .v rows) → d ≠ 0 ∧ d ≠ 1) :
    ∃ e, (Expr.m a).mul (.s (.k d)) = .ok e ∧ e.Canon ∧ e.TermsIn D ∧
      e.Denotes ((C d : MvPolynomial ℕ R) • V) :=
  eden_ok (f := fun i j => extM V i j * C d)
    (Mat.mul_k_ok hD hr hc (earr_m_iff.mp (eden_of ha ta da)) hd) fun i j => by
    rw [Matrix.smul_apply, ← extM_fin V, smul_eq_mul, mul_comm]

/-- C25 for matrices, partial: a constant matrix times a polynomial, in either order. -/
theorem kmat_mul_poly_partial {rows : List (List R)} {p : Poly R} (hD : RearrFree D) (hr : 0 < r)
    (hc : 0 < c) (da : (Expr.m (.k rows)).Denotes V) (hp : (Scalar.poly p).Canon)
    (tp : (Scalar.poly p).TermsIn D) :
    (∃ e, (Expr.m (.k rows)).mul (.s (.poly p)) = .ok e ∧ e.Canon ∧ e.TermsIn D ∧
      e.Denotes ((Scalar.poly p).den • V)) ∧
    (∃ e, (Expr.s (.poly p)).mul (.m (.k rows)) = .ok e ∧ e.Canon ∧ e.TermsIn D ∧
      e.Denotes ((Scalar.poly p).den • V)) := by
  have hk : ∀ q : Scalar R → Prop, (∀ x, q (.k x)) → (Expr.m (.k rows)).All q := by
    intro q hq row hrow a ha
    obtain ⟨row', -, rfl⟩ := List.mem_map.mp hrow
    obtain ⟨x, -, rfl⟩ := List.mem_map.mp ha
    exact hq x
  have h1 := earr_m_iff.mp (eden_of (D := ∅) (hk _ fun _ => trivial) (hk _ fun _ => trivial) da)
  have h2 : GoodDen (fun _ => True) D (Scalar.poly p).den (.poly p) := ⟨good_of hp tp, rfl⟩
  have key := kmMul_poly_ok (Q := fun i j => GoodDen (fun _ => True) D (extM V i j * (Scalar.poly p).den))
    hr hc h1 h2.1.check (fun _ _ _ _ => stable_goodDen hD _) fun i j x _ _ hx =>
      goodDen_mul (x := .poly (kToPoly x)) (y := .poly p) (prodIn_const D).symm hD
        ⟨good_toPoly (a := .k x) hx.1, (toPoly_den (.k x)).trans hx.2⟩ h2
  have hf : ∀ (i : Fin r) (j : Fin c),
      extM V i j * (Scalar.poly p).den = ((Scalar.poly p).den • V) i j := fun i j => by
    rw [Matrix.smul_apply, ← extM_fin V, smul_eq_mul, mul_comm]
  refine ⟨eden_ok (f := fun i j => extM V i j * (Scalar.poly p).den) key hf,
    eden_ok (f := fun i j => extM V i j * (Scalar.poly p).den) (Q := fun e => MKind r c e) ?_ hf⟩
  show Go.Ok (p.check >>= fun _ => Mat.check (.k rows) >>= fun _ =>
    kmMul rows (.s (.poly p)) >>= Expr.asSimplified) _
  rw [show p.check = .ok () from h2.1.check, Go.ok_bind, h1.check hr (fun _ _ _ => goodDen_check),
    Go.ok_bind]
  exact Go.Ok.bind key fun e he => simp_m hr (fun _ _ _ _ => stable_goodDen hD _) he

/-! ### Quadratic forms -/

/-- The vector of variables as a matrix with one row. -/
theorem transpose_denotes_row {l : List (Var R)} {W : Matrix (Fin s) (Fin 1) (MvPolynomial ℕ R)}
    (db : (Expr.v (.v l)).Denotes W) : (Expr.m (.v [l])).Denotes W.transpose := by
  rw [denotes_iff] at db ⊢
  refine LArr.cons_iff.mpr ⟨?_, LArr.nil _⟩
  refine LArr.map_iff.mpr (LArr.mono (LArr.map_iff.mp (earr_v_iff.mp db)) fun i v hi hv => ?_)
  show (Scalar.var v).den = extM W.transpose 0 i
  rw [hv, extM_of W hi (by decide), extM_of _ (by decide) hi]
  rfl

/-- The quadratic form as a matrix product. -/
private theorem quadratic_form_aux {n : ℕ} (hn : 2 ≤ n) {l : List (Var R)} {rows : List (List R)}
    {W : Matrix (Fin n) (Fin 1) (MvPolynomial ℕ R)} {Q : Matrix (Fin n) (Fin n) (MvPolynomial ℕ R)}
    (hv : ∀ v ∈ l, v.OK) (dl : (Expr.v (.v l)).Denotes W) (dq : (Expr.m (.k rows)).Denotes Q) :
    ∃ e1 e2 e3, (Expr.v (.v l)).transpose = .ok e1 ∧ e1.mul (.m (.k rows)) = .ok e2 ∧
      e2.mul (.v (.v l)) = .ok e3 ∧ e3.Canon ∧ e3.TermsIn (degLE 2) ∧
      e3.Denotes (W.transpose * Q * W) ∧ ∃ t, e3 = .s t := by
  have hlc : ∀ q : Scalar R → Prop, (∀ v ∈ l, q (.var v)) →
      (Expr.v (.v l)).All q ∧ (Expr.m (.v [l])).All q := by
    intro q hq
    constructor
    · intro row hrow a ha
      obtain ⟨x, hx, rfl⟩ := List.mem_map.mp hrow
      obtain ⟨y, hy, rfl⟩ := List.mem_map.mp hx
      obtain rfl := List.mem_singleton.mp ha
      exact hq y hy
    · intro row hrow a ha
      obtain rfl := List.mem_singleton.mp hrow
      obtain ⟨x, hx, rfl⟩ := List.mem_map.mp ha
      exact hq x hx
  have hk : ∀ q : Scalar R → Prop, (∀ x, q (.k x)) → (Expr.m (.k rows)).All q := by
    intro q hq row hrow a ha
    obtain ⟨row', -, rfl⟩ := List.mem_map.mp hrow
    obtain ⟨x, -, rfl⟩ := List.mem_map.mp ha
    exact hq x
  have hcan := hlc (fun a => a.Canon) fun v h => hv v h
  have hterm := hlc (fun a => a.TermsIn (degLE 1)) fun v _ => by
    show ((Finsupp.single v.id 1).sum fun _ e => e) ≤ 1
    rw [Finsupp.sum_single_index rfl]
  have h1 := earr_m_iff.mp (eden_of hcan.2 hterm.2 (transpose_denotes_row dl))
  have h2 := earr_m_iff.mp (eden_of (D := degLE 0) (hk _ fun _ => trivial) (hk _ fun _ => trivial) dq)
  have ht : (Expr.v (.v l)).transpose = .ok (.m (.v [l])) := by
    have := (earr_v_iff.mp (eden_of hcan.1 hterm.1 dl)).check (by omega) fun _ _ => goodDen_check
    simp only [Expr.transpose, Vec.transpose, this, Go.pure_eq, Go.ok_bind]
  have hD : RearrFree (degLE 1) := rearrFree_degLE_two.mono fun d hd => le_trans (b := 1) hd (by omega)
  obtain ⟨e2, h3, h4, h5⟩ := Mat.mul_mat_ok (by omega) (by omega) (by omega : 0 < n) h1
    (fun _ _ _ => goodDen_check) h2 (fun _ _ _ => goodDen_check)
    (I := fun i j k => GoodDen (fun _ => True) (degLE 1) (psum W.transpose Q i j k))
    (fun i j _ _ => psum_zero _ _ i j) (fun _ _ _ _ => stable_goodDen hD _)
    fun i j k acc x y _ _ _ hacc hx hy => (goodDen_mul (prodIn_degLE 1 0) hD hx hy).mono fun t ht => by
      rw [psum_succ]
      exact goodDen_plus hD hacc ht
  obtain ⟨e2', h3', h6, h7, h8⟩ := eden_ok (f := fun i j => psum W.transpose Q i j n) (M := W.transpose * Q)
    (Q := fun _ => True) ⟨e2, h3, h4, trivial⟩ (psum_all _ _)
  rw [h3, Except.ok.injEq] at h3'
  subst h3'
  obtain ⟨a, rfl⟩ := h5.2.2 (by omega)
  refine ⟨.m (.v [l]), .m a, ?_⟩
  suffices h : ∃ e, (Expr.m a).mul (.v (.v l)) = .ok e ∧ e.Canon ∧ e.TermsIn (degLE 2) ∧
      e.Denotes (W.transpose * Q * W) ∧ ∃ t, e = .s t by
    obtain ⟨e, h⟩ := h
    exact ⟨e, ht, h3, h⟩
  have hp := prodIn_degLE 1 1
  by_cases hm : ∃ rows, a = .m rows
  · obtain ⟨rows, rfl⟩ := hm
    exact monomat_row_mul_varvec_partial hp rearrFree_degLE_two (by omega) h6 h7 h8 hcan.1 hterm.1 dl
  · obtain ⟨e, h9, h10, h11, h12, h13⟩ := mat_mul_varvec_partial hp rearrFree_degLE_two (by omega)
      (by omega) (fun rows h => hm ⟨rows, h⟩) h6 h7 h8 hcan.1 hterm.1 dl
    exact ⟨e, h9, h10, h11, h12, h13 rfl⟩

/-- C42: for `n ≥ 2`, a vector of `n` variables (repetitions allowed) and a constant `n` by `n` matrix
`q`, `x.Transpose().Multiply(Q).Multiply(x)` is a scalar that denotes the quadratic form. -/
theorem quadratic_form {n : ℕ} (hn : 2 ≤ n) (x : Fin n → Var R) (q : Fin n → Fin n → R)
    (hv : ∀ i, (x i).OK) :
    ∃ e1 e2 t, (Expr.v (.v (List.ofFn x))).transpose = .ok e1 ∧
      e1.mul (.m (.k (List.ofFn fun i => List.ofFn (q i)))) = .ok e2 ∧
      e2.mul (.v (.v (List.ofFn x))) = .ok (.s t) ∧ t.Canon ∧
      t.den = ∑ i, ∑ j, C (q i j) * X (x i).id * X (x j).id := by
  obtain ⟨e1, e2, e3, h1, h2, h3, h4, -, h5, t, rfl⟩ := quadratic_form_aux hn
    (l := List.ofFn x) (rows := List.ofFn fun i => List.ofFn (q i))
    (W := Matrix.of fun i _ => X (x i).id) (Q := Matrix.of fun i j => C (q i j))
    (fun v hmem => by
      obtain ⟨i, rfl⟩ := List.mem_ofFn.mp hmem
      exact hv i)
    (by simp [Expr.Denotes, Expr.grid, Vec.entries, List.map_ofFn, Function.comp_def, Scalar.den])
    (by simp [Expr.Denotes, Expr.grid, Mat.entries, List.map_ofFn, Function.comp_def, Scalar.den])
  refine ⟨e1, e2, t, h1, h2, h3, h4 [t] (by simp [Expr.grid]) t (by simp), ?_⟩
  have h6 := (denotes_iff.mp h5).2 0 [t] rfl
  have h6 := h6.2 0 t rfl
  beta_reduce at h6
  rw [extM_of _ (by decide) (by decide)] at h6
  rw [h6, Matrix.mul_apply, Finset.sum_comm]
  refine Finset.sum_congr rfl fun j _ => ?_
  rw [Matrix.mul_apply, Finset.sum_mul]
  refine Finset.sum_congr rfl fun i _ => ?_
  simp only [Matrix.transpose_apply, Matrix.of_apply]
  ring

end Value

/-! ## Counterexamples -/

/-- C26 is false for a constant matrix and a constant vector: `KMatrix.Multiply` does not accept
`KVector`. -/
theorem kmat_mul_kvec_false : (Expr.m wMk).mul (.v wVk) = .error .unsupported := by decide +kernel

/-- C26 is false for a matrix of monomials with several rows whose product with a vector of variables
collapses to a single monomial: the rows `(x, x)` and `(y, x)` times `(x, x)` panic in a type
assertion. -/
theorem monomat_mul_varvec_panics :
    (Expr.m (.m [[wm1 1 0 1, wm1 1 0 1], [wm1 1 1 1, wm1 1 0 1]])).mul (.v (.v [wx, wx])) =
      .error .typeAssert := by decide +kernel

/-- C26: a constant matrix with one row and three columns times a vector of length one is accepted and
drops the second and third column. -/
theorem kmat_row_mul_short_vec_false :
    (Expr.m (.k [[1, 2, 3]])).mul (.v (.v [wx])) = .ok (.s (.var wx)) := by decide +kernel

/-- C25 is false for a matrix of variables and the constants 0 and 1: the products are not monomials
and the type assertion panics. -/
theorem varmat_mul_one_panics :
    (Expr.m wMv).mul (.s (.k 1)) = .error .typeAssert ∧
    (Expr.m wMv).mul (.s (.k 0)) = .error .typeAssert := by decide +kernel

/-- C25 is false for a constant matrix and a variable or a monomial, and for a constant on the left of
a matrix of variables. -/
theorem kmat_mul_var_false :
    (Expr.m wMk).mul (.s (.var wx)) = .error .unsupported ∧
    (Expr.m wMk).mul (.s (.mono (wm1 2 0 1))) = .error .unsupported ∧
    (Expr.s (.k 2)).mul (.m wMv) = .error .unsupported := by decide +kernel

/-- C42 is false for a single variable: the product of the 1 by 1 matrices is a scalar, which does not
accept a vector. -/
theorem quadratic_form_one_false :
    ((Expr.v (.v [wx])).transpose >>= fun e => e.mul (.m (.k [[2]])) >>= fun e =>
      e.mul (.v (.v [wx]))) = .error .unsupported := by decide +kernel

/-! ## Examples -/

example : ∃ e, (Expr.m wMv).mul (.m wMk) = .ok e ∧ e.Canon ∧ e.TermsIn (degLE 2) ∧
    e.Denotes (!![X 0, X 1; X 1, X 2] * !![C 1, C 2; C 3, C 4]) :=
  mat_mul_affine (by decide) (by decide) (by decide) (Expr.okDeg_canon 2 (by decide +kernel))
    (Expr.okDeg_terms (by decide +kernel)) wMv_denotes
    (Expr.okDeg_canon 2 (by decide +kernel)) (Expr.okDeg_terms (by decide +kernel)) wMk_denotes

example : ∃ e, (Expr.m wMm).mul (.m wMp) = .ok e ∧ e.Shape 2 2 ∧ e.Canon ∧
    ∀ v, e.Mentions v → (Expr.m wMm).Mentions v ∨ (Expr.m wMp).Mentions v :=
  mat_mul_total (by decide) (s := 2) (by decide) (by decide) (Expr.okDeg_canon 2 (by decide +kernel))
    (by decide) (Expr.okDeg_canon 2 (by decide +kernel)) (by decide)

example : (Expr.m wMv).mul (.m (.k [[1, 2]])) = .error .dimension :=
  mat_mul_dimension (r := 2) (s := 1) (c := 2) (s' := 2) (by decide) (by decide)
    (Expr.okDeg_canon 2 (by decide +kernel)) (by decide)
    (Expr.okDeg_canon 2 (by decide +kernel)) (by decide) (by decide)

example : ∃ e, (Expr.m wMk).mul (.m wMv) = .ok e ∧ e.Canon ∧ e.TermsIn (degLE 2) ∧
    e.Denotes (!![C 1, C 2; C 3, C 4] * !![X 0, X 1; X 1, X 2]) :=
  kmat_mul_deg_two (by decide) (by decide) (by decide) wMk_denotes
    (Expr.okDeg_canon 2 (by decide +kernel)) (Expr.okDeg_terms (by decide +kernel)) wMv_denotes

example : ∃ e, (Expr.m wMv).mul (.v wVv) = .ok e ∧ e.Canon ∧ e.TermsIn (degLE 2) ∧
    e.Denotes (!![X 0, X 1; X 1, X 2] * !![X 0; X 1]) ∧ (2 = 1 → ∃ t, e = .s t) :=
  mat_mul_varvec_partial (prodIn_degLE 1 1) rearrFree_degLE_two (by decide) (by decide)
    (fun _ h => by cases h) (Expr.okDeg_canon 2 (by decide +kernel))
    (Expr.okDeg_terms (by decide +kernel)) wMv_denotes
    (Expr.okDeg_canon 2 (by decide +kernel)) (Expr.okDeg_terms (by decide +kernel)) wVv_denotes

example : ∃ e, (Expr.m wMv).mul (.v wVk) = .ok e ∧ e.Canon ∧ e.TermsIn (degLE 1) ∧
    e.Denotes (!![X 0, X 1; X 1, X 2] * !![(C 2 : MvPolynomial ℕ ℚ); C 3]) :=
  varmat_mul_kvec_partial (rearrFree_degLE_two.mono fun _ hd => le_trans (b := 1) hd (by decide))
    (by decide) (by decide)
    (Expr.okDeg_canon 2 (by decide +kernel)) (Expr.okDeg_terms (by decide +kernel)) wMv_denotes
    wVk_denotes

/-- The row of monomials `(3x, 2y)` times `(x, y)`. -/
example : ∃ (M : Matrix (Fin 1) (Fin 2) (MvPolynomial ℕ ℚ)) (e : Expr ℚ),
    (Expr.m (.m [[wm1 3 0 1, wm1 2 1 1]])).Denotes M ∧
    (Expr.m (.m [[wm1 3 0 1, wm1 2 1 1]])).mul (.v wVv) = .ok e ∧ e.Canon ∧ e.TermsIn (degLE 2) ∧
    e.Denotes (M * !![X 0; X 1]) ∧ ∃ t, e = .s t := by
  obtain ⟨M, hM⟩ := Expr.Shape.exists_denotes
    (show (Expr.m (.m [[wm1 (3 : ℚ) 0 1, wm1 2 1 1]])).Shape 1 2 by decide)
  obtain ⟨e, he⟩ := monomat_row_mul_varvec_partial (prodIn_degLE 1 1) rearrFree_degLE_two (by decide)
    (Expr.okDeg_canon 2 (by decide +kernel)) (Expr.okDeg_terms (by decide +kernel)) hM
    (Expr.okDeg_canon 2 (by decide +kernel)) (Expr.okDeg_terms (by decide +kernel)) wVv_denotes
  exact ⟨M, e, hM, he⟩

example : ∃ e, (Expr.m wMv).mul (.s (.k 3)) = .ok e ∧ e.Canon ∧ e.TermsIn (degLE 2) ∧
    e.Denotes ((C 3 : MvPolynomial ℕ ℚ) • !![X 0, X 1; X 1, X 2]) :=
  mat_mul_k_partial rearrFree_degLE_two (by decide) (by decide)
    (Expr.okDeg_canon 2 (by decide +kernel)) (Expr.okDeg_terms (by decide +kernel)) wMv_denotes
    fun _ => by norm_num

/-- `x² + 5xy + 4y²`, written with the matrix of rows `(1, 2)` and `(3, 4)`. -/
example : ∃ e1 e2 t, (Expr.v (.v (List.ofFn ![wx, wy]))).transpose = .ok e1 ∧
    e1.mul (.m (.k (List.ofFn fun i => List.ofFn (![![1, 2], ![3, 4]] i)))) = .ok e2 ∧
    e2.mul (.v (.v (List.ofFn ![wx, wy]))) = .ok (.s t) ∧ t.Canon ∧
    t.den = ∑ i, ∑ j, C (![![1, 2], ![3, 4]] i j) * X (![wx, wy] i).id * X (![wx, wy] j).id :=
  quadratic_form (by decide) ![wx, wy] ![![1, 2], ![3, 4]] (by
    intro i
    fin_cases i <;> (show Var.OK _; unfold Var.OK; decide +kernel))

end Verif
