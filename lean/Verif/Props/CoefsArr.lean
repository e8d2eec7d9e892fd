import Verif.Props.CoefsMatMul

/-!
# C98: sums, differences and multiples of vectors and matrices, coefficient by coefficient

Which `float64` operation computes each coefficient of each entry.
-/

set_option linter.unusedSectionVars false

namespace Verif

open MvPolynomial

section Arrays
variable {n r c : ℕ} {D D1 D2 : Set (ℕ →₀ ℕ)}

private def Is (D : Set (ℕ →₀ ℕ)) (e : Expr F64) (i j : ℕ) (x : Scalar F64) : Prop :=
  x = e.entryD i j ∧ COpd F64.Value (fun _ => True) D x

private theorem Expr.Tidy.earr {e : Expr F64} (h : e.Tidy r c D) : EArr r c (Is D e) e :=
  (EArr.self h.shape).mono fun i j x hi hj hx => by
    have e1 : e.entryD i j = x := by unfold Expr.entryD; rw [hx]; rfl
    refine ⟨e1.symm, ?_⟩
    rw [← e1]
    exact ⟨good_of (h.canon i hi j hj) (h.terms i hi j hj), h.nums i hi j hj, onceL_iff.mpr (h.once i hi j hj)⟩

/-- A result with known coefficients. -/
private def ARes (r c : ℕ) (D : Set (ℕ →₀ ℕ)) (f : ℕ → ℕ → (ℕ →₀ ℕ) → F64) (e : Expr F64) : Prop :=
  e.Tidy r c D ∧ ∀ i < r, ∀ j < c, ∀ d, (e.entryD i j).coeffAt d = f i j d

private theorem res_of {e : Expr F64} {f : ℕ → ℕ → (ℕ →₀ ℕ) → F64}
    (h : EArr r c (fun i j => CRes F64.Value (fun _ => True) D (f i j)) e) : ARes r c D f e := by
  have g : ∀ i < r, ∀ j < c, CRes F64.Value (fun _ => True) D (f i j) (e.entryD i j) := fun i hi j hj => by
    obtain ⟨x, h1, h2⟩ := h.get hi hj
    unfold Expr.entryD
    rw [h1]
    exact h2
  exact ⟨⟨h.shape, fun i hi j hj => (good_iff.mp (g i hi j hj).good).1,
    fun i hi j hj => (good_iff.mp (g i hi j hj).good).2.1, fun i hi j hj => (g i hi j hj).nums,
    fun i hi j hj => onceL_iff.mp (g i hi j hj).once⟩, fun i hi j hj => (g i hi j hj).coef⟩

private theorem opd {s : Scalar F64} (cs : s.Canon) (ts : s.TermsIn D) (vs : s.NumsValid) (os : s.Repeats 1) :
    COpd F64.Value (fun _ => True) D s := ⟨good_of cs ts, vs, onceL_iff.mpr os⟩

private theorem plus_res (hD : RearrFree D) (hF : D ⊆ flat) {x y : Scalar F64}
    (hx : COpd F64.Value (fun _ => True) D x) (hy : COpd F64.Value (fun _ => True) D y) :
    Go.Ok (x.plus y) (CRes F64.Value (fun _ => True) D fun d => GoNum.add (x.coeffAt d) (y.coeffAt d)) :=
  Scalar.plus_coef f64Laws hD hF hx hy

private theorem neg_res (hD : RearrFree D) (hF : D ⊆ flat) {x : Scalar F64}
    (hx : COpd F64.Value (fun _ => True) D x) :
    Go.Ok (x.mul (.k negOne)) (CRes F64.Value (fun _ => True) D fun d => GoNum.neg (x.coeffAt d)) :=
  (Scalar.mulNeg_coef f64Laws hD hF hx).mono fun _ h => h.congr fun _ =>
    F64.mul_negOne (fco_num f64Laws hx.nums)

private theorem sub_res (hD : RearrFree D) (hF : D ⊆ flat) {x y : Scalar F64} {f : (ℕ →₀ ℕ) → F64}
    (hx : COpd F64.Value (fun _ => True) D x) (hy : CRes F64.Value (fun _ => True) D (fun d => GoNum.neg (f d)) y) :
    Go.Ok (x.plus y) (CRes F64.Value (fun _ => True) D fun d => GoNum.sub (x.coeffAt d) (f d)) :=
  (plus_res hD hF hx hy.opd).mono fun _ h => h.congr fun d => by
    show GoNum.add _ (fco d y.terms) = _
    rw [hy.coef]
    rfl

/-! ## Vectors -/

/-- C98: the sum of two vectors of any kinds. -/
theorem vec_plus_coeffs (hn : 0 < n) (hD : RearrFree D) (hF : D ⊆ flat) {a b : Vec F64}
    (ha : (Expr.v a).Tidy n 1 D) (hb : (Expr.v b).Tidy n 1 D) :
    ∃ e, (Expr.v a).plus (.v b) = .ok e ∧ e.Tidy n 1 D ∧ ∀ i < n, ∀ d,
      (e.entryD i 0).coeffAt d =
        GoNum.add (((Expr.v a).entryD i 0).coeffAt d) (((Expr.v b).entryD i 0).coeffAt d) := by
  obtain ⟨e, h1, h2, -⟩ := Vec.plus_vec_ok (Q := fun i => CRes F64.Value (fun _ => True) D fun d =>
      GoNum.add (((Expr.v a).entryD i 0).coeffAt d) (((Expr.v b).entryD i 0).coeffAt d)) hn
    (earr_v_iff.mp ha.earr) (fun _ _ h => h.2.good.check) (earr_v_iff.mp hb.earr) (fun _ _ h => h.2.good.check)
    (fun i _ => stable_coef f64Laws hD hF) (fun i x y _ hx hy => by
      rw [← hx.1, ← hy.1]
      exact plus_res hD hF hx.2 hy.2)
  obtain ⟨h3, h4⟩ := res_of h2
  exact ⟨e, h1, h3, fun i hi => h4 i hi 0 one_pos⟩

/-- C98: the difference of two vectors of any kinds. -/
theorem vec_minus_coeffs (hn : 0 < n) (hD : RearrFree D) (hF : D ⊆ flat) {a b : Vec F64}
    (ha : (Expr.v a).Tidy n 1 D) (hb : (Expr.v b).Tidy n 1 D) :
    ∃ e, (Expr.v a).minus (.v b) = .ok e ∧ e.Tidy n 1 D ∧ ∀ i < n, ∀ d,
      (e.entryD i 0).coeffAt d =
        GoNum.sub (((Expr.v a).entryD i 0).coeffAt d) (((Expr.v b).entryD i 0).coeffAt d) := by
  obtain ⟨e, h1, h2, -⟩ := Vec.minus_vec_ok (Q := fun i => CRes F64.Value (fun _ => True) D fun d =>
      GoNum.sub (((Expr.v a).entryD i 0).coeffAt d) (((Expr.v b).entryD i 0).coeffAt d))
    (T := fun i => CRes F64.Value (fun _ => True) D fun d => GoNum.neg (((Expr.v b).entryD i 0).coeffAt d)) hn
    (earr_v_iff.mp ha.earr) (fun _ _ h => h.2.good.check) (earr_v_iff.mp hb.earr) (fun _ _ h => h.2.good.check)
    (fun i _ => stable_coef f64Laws hD hF) (fun i _ => stable_coef f64Laws hD hF)
    (fun i x _ hx => by
      rw [← hx.1]
      exact neg_res hD hF hx.2)
    (fun i x y _ hx hy => by
      rw [← hx.1]
      exact sub_res hD hF hx.2 hy)
  obtain ⟨h3, h4⟩ := res_of h2
  exact ⟨e, h1, h3, fun i hi => h4 i hi 0 one_pos⟩

section Scalar
variable {s : Scalar F64} (cs : s.Canon) (vs : s.NumsValid) (os : s.Repeats 1)
include cs vs os

/-- C98: a vector plus a scalar: the scalar is added to every entry. -/
theorem vec_plus_scalar_coeffs (ts : s.TermsIn D) (hn : 0 < n) (hD : RearrFree D) (hF : D ⊆ flat) {a : Vec F64}
    (ha : (Expr.v a).Tidy n 1 D) :
    ∃ e, (Expr.v a).plus (.s s) = .ok e ∧ e.Tidy n 1 D ∧ ∀ i < n, ∀ d,
      (e.entryD i 0).coeffAt d = GoNum.add (((Expr.v a).entryD i 0).coeffAt d) (s.coeffAt d) := by
  have hs := opd cs ts vs os
  obtain ⟨e, h1, h2, -⟩ := Vec.plus_scalar_ok (Q := fun i => CRes F64.Value (fun _ => True) D fun d =>
      GoNum.add (((Expr.v a).entryD i 0).coeffAt d) (s.coeffAt d)) hn
    (earr_v_iff.mp ha.earr) (fun _ _ h => h.2.good.check) hs.good.check
    (fun i _ => stable_coef f64Laws hD hF) (fun i x _ hx => by
      rw [← hx.1]
      exact plus_res hD hF hx.2 hs)
  obtain ⟨h3, h4⟩ := res_of h2
  exact ⟨e, h1, h3, fun i hi => h4 i hi 0 one_pos⟩

/-- C98: a vector minus a scalar. -/
theorem vec_minus_scalar_coeffs (ts : s.TermsIn D) (hn : 0 < n) (hD : RearrFree D) (hF : D ⊆ flat) {a : Vec F64}
    (ha : (Expr.v a).Tidy n 1 D) :
    ∃ e, (Expr.v a).minus (.s s) = .ok e ∧ e.Tidy n 1 D ∧ ∀ i < n, ∀ d,
      (e.entryD i 0).coeffAt d = GoNum.sub (((Expr.v a).entryD i 0).coeffAt d) (s.coeffAt d) := by
  have hs := opd cs ts vs os
  obtain ⟨e, h1, h2, -⟩ := Vec.minus_scalar_ok (Q := fun i => CRes F64.Value (fun _ => True) D fun d =>
      GoNum.sub (((Expr.v a).entryD i 0).coeffAt d) (s.coeffAt d)) hn
    (earr_v_iff.mp ha.earr) (fun _ _ h => h.2.good.check) hs.good.check (stable_coef f64Laws hD hF)
    (fun i _ => stable_coef f64Laws hD hF) (neg_res hD hF hs) (fun i x y _ hx hy => by
      rw [← hx.1]
      exact sub_res hD hF hx.2 hy)
  obtain ⟨h3, h4⟩ := res_of h2
  exact ⟨e, h1, h3, fun i hi => h4 i hi 0 one_pos⟩

/-- C98: a vector times a scalar; a vector of polynomials takes numbers and polynomials only. -/
theorem vec_mul_scalar_coeffs {D3 : Set (ℕ →₀ ℕ)} (ts : s.TermsIn D2) (hn : 0 < n) (hD : RearrFree D3) (hF : D3 ⊆ flat)
    (hp : ProdIn D1 D2 D3) {a : Vec F64} (ha : (Expr.v a).Tidy n 1 D1)
    (hk : (∃ l, a = .p l) → (∃ x, s = .k x) ∨ ∃ q, s = .poly q) :
    ∃ e, (Expr.v a).mul (.s s) = .ok e ∧ e.Tidy n 1 D3 ∧ ∀ i < n, ∀ d,
      (e.entryD i 0).coeffAt d = ((Expr.v a).entryD i 0).timesAt s d := by
  have hs := opd cs ts vs os
  obtain ⟨e, h1, h2, -⟩ := Vec.mulScalar_ok (Q := fun i => CRes F64.Value (fun _ => True) D3 fun d =>
      ((Expr.v a).entryD i 0).timesAt s d) hn
    (earr_v_iff.mp ha.earr) (fun _ _ h => h.2.good.check) hs.good.check hk
    (fun i _ => stable_coef f64Laws hD hF) (fun i x _ hx => by
      rw [← hx.1]
      exact Scalar.mul_coef f64ProdLaws hD hF hp hx.2 hs)
  obtain ⟨h3, h4⟩ := res_of h2
  exact ⟨e, h1, h3, fun i hi => h4 i hi 0 one_pos⟩

/-- C98: a matrix of polynomials plus a scalar that is not a variable. -/
theorem pmat_plus_scalar_coeffs (ts : s.TermsIn D) (hv : ∀ v, s ≠ .var v) (hr : 0 < r) (hc : 0 < c) (hD : RearrFree D)
    (hF : D ⊆ flat) {rows : List (List (Poly F64))} (ha : (Expr.m (.p rows)).Tidy r c D) :
    ∃ e, (Expr.m (.p rows)).plus (.s s) = .ok e ∧ e.Tidy r c D ∧ ∀ i < r, ∀ j < c, ∀ d,
      (e.entryD i j).coeffAt d = GoNum.add (((Expr.m (.p rows)).entryD i j).coeffAt d) (s.coeffAt d) := by
  have hs := opd cs ts vs os
  obtain ⟨e, h1, h2, -⟩ := pmPlus_scalar_ok (Q := fun i j => CRes F64.Value (fun _ => True) D fun d =>
      GoNum.add (((Expr.m (.p rows)).entryD i j).coeffAt d) (s.coeffAt d)) hr hc
    (earr_m_iff.mp ha.earr) (fun _ _ _ h => h.2.good.check) hs.good.check hv
    (fun i j _ _ => stable_coef f64Laws hD hF) (fun i j p t _ _ hx ht => by
      rw [← hx.1]
      have ht' : t.terms = s.terms ∧ COpd F64.Value (fun _ => True) D t := by
        rcases ht with rfl | rfl
        · exact ⟨rfl, hs⟩
        · have : (Scalar.poly s.toPoly).terms = s.terms := terms_toPoly s
          exact ⟨this, good_toPoly hs.good, by rw [this]; exact hs.nums, by rw [this]; exact hs.once⟩
      refine (plus_res hD hF hx.2 ht'.2).mono fun _ h => h.congr fun d => ?_
      show GoNum.add _ (fco d t.terms) = GoNum.add _ (fco d s.terms)
      rw [ht'.1])
  obtain ⟨h3, h4⟩ := res_of h2
  exact ⟨e, h1, h3, h4⟩

end Scalar

/-! ## Matrices -/

/-- C98: the sum of two matrices, if the first is a matrix of numbers, or of polynomials while the second is one of
numbers or of polynomials.  (A matrix of variables takes numbers only, a matrix of monomials no matrix but one of
polynomials, see `mmat_plus_terms`.) -/
theorem mat_plus_coeffs (hr : 0 < r) (hc : 0 < c) (hD : RearrFree D) (hF : D ⊆ flat) {a b : Mat F64}
    (ha : (Expr.m a).Tidy r c D) (hb : (Expr.m b).Tidy r c D)
    (hk : (∃ ks, a = .k ks) ∨ (∃ ps, a = .p ps) ∧ ((∃ ks, b = .k ks) ∨ ∃ ps, b = .p ps)) :
    ∃ e, (Expr.m a).plus (.m b) = .ok e ∧ e.Tidy r c D ∧ ∀ i < r, ∀ j < c, ∀ d,
      (e.entryD i j).coeffAt d =
        GoNum.add (((Expr.m a).entryD i j).coeffAt d) (((Expr.m b).entryD i j).coeffAt d) := by
  have key : Go.Ok ((Expr.m a).plus (.m b)) (EArr r c fun i j => CRes F64.Value (fun _ => True) D fun d =>
      GoNum.add (((Expr.m a).entryD i j).coeffAt d) (((Expr.m b).entryD i j).coeffAt d)) := by
    rcases hk with ⟨ks, rfl⟩ | ⟨⟨ps, rfl⟩, hk⟩
    · exact (kmPlus_mat_ok hr (earr_m_iff.mp ha.earr) (fun _ _ _ h => h.2.good.check) (earr_m_iff.mp hb.earr)
        (fun _ _ _ h => h.2.good.check) (fun i j _ _ => stable_coef f64Laws hD hF) (fun i j x y _ _ hx hy => by
          rw [← hx.1, ← hy.1]
          exact plus_res hD hF hx.2 hy.2)).mono fun _ h => h.1
    · exact (pmPlus_mat_ok hr hc (earr_m_iff.mp ha.earr) (fun _ _ _ h => h.2.good.check) (earr_m_iff.mp hb.earr)
        (fun _ _ _ h => h.2.good.check) hk (fun i j _ _ => stable_coef f64Laws hD hF) (fun i j x y _ _ hx hy => by
          rw [← hx.1, ← hy.1]
          exact plus_res hD hF hx.2 hy.2)).mono fun _ h => h.1
  obtain ⟨e, h1, h2⟩ := key
  obtain ⟨h3, h4⟩ := res_of h2
  exact ⟨e, h1, h3, h4⟩

/-- C98: a matrix of polynomials times a number. -/
theorem pmat_scale_coeffs (hr : 0 < r) (hc : 0 < c) (hD : RearrFree D) (hF : D ⊆ flat)
    {rows : List (List (Poly F64))} (ha : (Expr.m (.p rows)).Tidy r c D) {q : ℚ} (hq : F64.Able q) :
    ∃ e, (Expr.m (.p rows)).mul (.s (.k (.fin q))) = .ok e ∧ e.Tidy r c D ∧ ∀ i < r, ∀ j < c, ∀ d,
      (e.entryD i j).coeffAt d = GoNum.mul (((Expr.m (.p rows)).entryD i j).coeffAt d) (.fin q) := by
  have hk : COpd F64.Value (fun _ => True) ∅ (.k (.fin q)) :=
    ⟨trivial, numL_single (N := F64.Value) (m := kToMono (F64.fin q)) hq, once_single _⟩
  obtain ⟨e, h1, h2, -⟩ := pmMul_k_ok (Q := fun i j => CRes F64.Value (fun _ => True) D fun d =>
      GoNum.mul (((Expr.m (.p rows)).entryD i j).coeffAt d) (.fin q)) (d := .fin q) hr hc
    (earr_m_iff.mp ha.earr) (fun _ _ _ h => h.2.good.check)
    (fun i j _ _ => stable_coef f64Laws hD hF) (fun i j p _ _ hx => by
      rw [← hx.1]
      refine Go.Ok.mono (Scalar.mul_coef f64ProdLaws hD hF (prodIn_const D) hx.2 hk) fun _ h => h.congr fun d => ?_
      exact conv_const hx.2.nums hq d)
  obtain ⟨h3, h4⟩ := res_of h2
  exact ⟨e, h1, h3, h4⟩

/-- C98: a matrix of numbers plus a number. -/
theorem kmat_plus_k_coeffs (hr : 0 < r) (hc : 0 < c) {rows : List (List F64)}
    (ha : (Expr.m (.k rows)).Tidy r c ∅) {x : F64} (hx : x.Value) :
    ∃ e, (Expr.m (.k rows)).plus (.s (.k x)) = .ok e ∧ e.Tidy r c ∅ ∧ ∀ i < r, ∀ j < c, ∀ d,
      (e.entryD i j).coeffAt d =
        if d = 0 then GoNum.add (((Expr.m (.k rows)).entryD i j).coeffAt 0) x else .fin 0 := by
  obtain ⟨e, h1, h2, -⟩ := kmPlus_k_ok (Q := fun i j => CRes F64.Value (fun _ => True) ∅ fun d =>
      if d = 0 then GoNum.add (((Expr.m (.k rows)).entryD i j).coeffAt 0) x else .fin 0) hr hc
    (earr_m_iff.mp ha.earr) x (fun i j y _ _ hy => by
      refine ⟨trivial, numL_single (N := F64.Value) (m := kToMono _) (F64.value_add _ _), once_single _, fun d => ?_⟩
      rw [← hy.1, F64.mul_one_value hx]
      show fco d [kToMono _] = _
      rw [fco_cons, kToMono_degs]
      by_cases h : d = 0
      · subst h
        rw [if_pos rfl, if_pos rfl]
        show GoNum.add x y = GoNum.add (fco 0 [kToMono y]) x
        rw [fco_cons, kToMono_degs, if_pos rfl]
        exact f64Laws.add_comm _ _
      · rw [if_neg (Ne.symm h), if_neg h]
        rfl)
  obtain ⟨h3, h4⟩ := res_of h2
  exact ⟨e, h1, h3, h4⟩

end Arrays

section Monomials
variable {S : Type} [GoNum S] {r c : ℕ}

private theorem simplifies {l : List (Mono S)} (hne : l ≠ []) (h : GoodL (fun _ => True) Set.univ l) :
    ∃ q, Poly.simplify ⟨l⟩ = .ok q := by
  obtain ⟨q, hq, -⟩ := Poly.simplify_ok (p := ⟨l⟩) hne h
  exact ⟨q, hq⟩

/-- C98: a matrix of monomials plus a scalar or a matrix of polynomials: nothing is computed, the term is put in
front of the terms of the other operand, in every arithmetic. -/
theorem mmat_plus_terms {rows : List (List (Mono S))} (hr : 0 < r) (ha : (Expr.m (.m rows)).Canon)
    (sa : (Expr.m (.m rows)).Shape r c) :
    (∀ {s : Scalar S}, s.Canon → ∃ e, (Expr.m (.m rows)).plus (.s s) = .ok e ∧ e.Shape r c ∧ ∀ i < r, ∀ j < c,
      (e.entryD i j).terms = ((Expr.m (.m rows)).entryD i j).terms ++ s.terms) ∧
    (∀ {ps : List (List (Poly S))}, (Expr.m (.p ps)).Canon → (Expr.m (.p ps)).Shape r c →
      ∃ e, (Expr.m (.m rows)).plus (.m (.p ps)) = .ok e ∧ e.Shape r c ∧ ∀ i < r, ∀ j < c,
        (e.entryD i j).terms = ((Expr.m (.m rows)).entryD i j).terms ++ ((Expr.m (.p ps)).entryD i j).terms) := by
  have key : ∀ {e : Expr S}, e.Canon → e.Shape r c →
      EArr r c (fun i j x => x = e.entryD i j ∧ Good (fun _ => True) Set.univ x) e := fun {e} he hs =>
    ((EArr.self hs).and_all he).mono fun i j x hi hj hx => by
      have e1 : e.entryD i j = x := by unfold Expr.entryD; rw [hx.1]; rfl
      exact ⟨e1.symm, good_of hx.2 x.termsIn_univ⟩
  have out : ∀ {e : Expr S} {f : ℕ → ℕ → List (Mono S)}, EArr r c (fun i j x => x.terms = f i j) e →
      ∀ i < r, ∀ j < c, (e.entryD i j).terms = f i j := fun {e f} h i hi j hj => by
    obtain ⟨x, h1, h2⟩ := h.get hi hj
    unfold Expr.entryD
    rw [h1]
    exact h2
  constructor
  · intro s hs
    have gs : Good (fun _ => True) Set.univ s := good_of hs s.termsIn_univ
    obtain ⟨e, h1, h2, -⟩ := mmPlus_scalar_ok
      (Q := fun i j x => x.terms = ((Expr.m (.m rows)).entryD i j).terms ++ s.terms) hr (earr_m_iff.mp (key ha sa))
      (fun _ _ _ h => h.2.check) gs.check
      (fun i j m hm => simplifies (by simp) (goodL_cons hm.2 (good_toPoly gs)))
      (fun i j m _ _ hm => by rw [← hm.1]; exact congrArg (m :: ·) (terms_toPoly s))
    exact ⟨e, h1, h2.shape, out h2⟩
  · intro ps hp sp
    obtain ⟨e, h1, h2, -⟩ := mmPlus_pm_ok
      (Q := fun i j x => x.terms = ((Expr.m (.m rows)).entryD i j).terms ++ ((Expr.m (.p ps)).entryD i j).terms) hr
      (earr_m_iff.mp (key ha sa)) (fun _ _ _ h => h.2.check) (earr_m_iff.mp (key hp sp)) (fun _ _ _ h => h.2.check)
      (fun i j m p hm hq => simplifies (by simp) (goodL_cons hm.2 hq.2))
      (fun i j m p _ _ hm hq => by rw [← hm.1, ← hq.1]; rfl)
    exact ⟨e, h1, h2.shape, out h2⟩

end Monomials

/-! ## Examples -/

private def exV (p q : ℚ) : Vec F64 := .m [⟨.fin p, [1], [f64Var 1]⟩, ⟨.fin q, [1], [f64Var 2]⟩]

private theorem able_tenth : F64.Able f64Tenth := by unfold F64.Able; decide +kernel

private theorem able_fifth : F64.Able (round53 (1 / 5)) := by unfold F64.Able; decide +kernel

private theorem mono_ok (q : ℚ) (n : ℕ) : (Scalar.mono ⟨F64.fin q, [1], [f64Var n]⟩).Canon :=
  ⟨rfl, by simp, by simp, by
    intro v hv
    rw [List.mem_singleton.mp hv]
    show GoNum.le (F64.inf false) (F64.inf true) = false
    decide +kernel⟩

private theorem exV_tidy {p q : ℚ} (hp : F64.Able p) (hq : F64.Able q) : (Expr.v (exV p q)).Tidy 2 1 (degLE 1) := by
  have key : ∀ i < 2, ∀ j < 1, ∃ q' n, (Expr.v (exV p q)).entryD i j = .mono ⟨.fin q', [1], [f64Var n]⟩ ∧
      F64.Able q' := by
    intro i hi j hj
    obtain rfl : j = 0 := by omega
    rcases (by omega : i = 0 ∨ i = 1) with rfl | rfl
    · exact ⟨_, _, rfl, hp⟩
    · exact ⟨_, _, rfl, hq⟩
  refine ⟨⟨rfl, by simp [Expr.grid, exV, Vec.entries]⟩, fun i hi j hj => ?_, fun i hi j hj => ?_, fun i hi j hj => ?_,
    fun i hi j hj => ?_⟩ <;> obtain ⟨q', n, e, hq'⟩ := key i hi j hj <;> rw [e]
  · exact mono_ok _ _
  · refine Or.inr ?_
    rw [show Mono.degs ⟨F64.fin q', [1], [f64Var n]⟩ = Finsupp.single (f64Var n).id 1 from Var.degs_one _ _ _]
    exact single_degLE _ le_rfl
  · exact numL_single (m := ⟨F64.fin q', [1], [f64Var n]⟩) hq'
  · exact onceL_iff.mp (once_single (⟨F64.fin q', [1], [f64Var n]⟩ : Mono F64))

private theorem exV_first (p q : ℚ) : ((Expr.v (exV p q)).entryD 0 0).coeffAt (Finsupp.single 1 1) = .fin p := by
  refine (fco_cons _ _).trans (if_pos ?_)
  exact Var.degs_one _ _ _

/-- `[0.1 x, y] + [0.2 x, 0.1 y]` has the coefficient 0.1 + 0.2 of `float64`, which is not 0.3; so has the
difference with 0.1 - 0.2. -/
example : (∃ e, (Expr.v (exV f64Tenth 1)).plus (.v (exV (round53 (1 / 5)) f64Tenth)) = .ok e ∧
      (e.entryD 0 0).coeffAt (Finsupp.single 1 1) = .fin (round53 (f64Tenth + round53 (1 / 5))) ∧
      round53 (f64Tenth + round53 (1 / 5)) ≠ round53 (3 / 10)) ∧
    ∃ e, (Expr.v (exV f64Tenth 1)).minus (.v (exV (round53 (1 / 5)) f64Tenth)) = .ok e ∧
      (e.entryD 0 0).coeffAt (Finsupp.single 1 1) = .fin (round53 (f64Tenth - round53 (1 / 5))) := by
  have h1 : F64.Able 1 := by unfold F64.Able; decide +kernel
  have ta := exV_tidy able_tenth h1
  have tb := exV_tidy able_fifth able_tenth
  obtain ⟨e, e1, -, e2⟩ := vec_plus_coeffs two_pos rearrFree_degLE_one degLE_one_flat ta tb
  obtain ⟨f, f1, -, f2⟩ := vec_minus_coeffs two_pos rearrFree_degLE_one degLE_one_flat ta tb
  refine ⟨⟨e, e1, (e2 0 two_pos _).trans ?_, by decide +kernel⟩, f, f1, (f2 0 two_pos _).trans ?_⟩ <;>
    rw [exV_first, exV_first] <;> decide +kernel

/-- The matrix `[0.1 x, y]` of monomials plus `0.2 x` repeats the term `x` in its first entry. -/
example : ∃ e, (Expr.m (.m [[⟨.fin f64Tenth, [1], [f64Var 1]⟩, ⟨.fin 1, [1], [f64Var 2]⟩]])).plus
      (.s (.mono ⟨.fin (round53 (1 / 5)), [1], [f64Var 1]⟩)) = .ok e ∧
    (e.entryD 0 0).terms = [⟨.fin f64Tenth, [1], [f64Var 1]⟩, ⟨.fin (round53 (1 / 5)), [1], [f64Var 1]⟩] := by
  obtain ⟨e, h1, -, h2⟩ := (mmat_plus_terms (r := 1) (c := 2)
    (rows := [[⟨.fin f64Tenth, [1], [f64Var 1]⟩, ⟨.fin 1, [1], [f64Var 2]⟩]]) one_pos
    (by
      intro row hrow x hx
      obtain rfl := List.mem_singleton.mp hrow
      rcases List.mem_cons.mp hx with rfl | hx
      · exact mono_ok _ _
      · obtain rfl := List.mem_singleton.mp hx
        exact mono_ok _ _) ⟨rfl, by simp [Expr.grid, Mat.entries]⟩).1 (mono_ok (round53 (1 / 5)) 1)
  exact ⟨e, h1, h2 0 one_pos 0 two_pos⟩

private def exPoly : Poly F64 := ⟨[⟨.fin f64Tenth, [1], [f64Var 1]⟩, ⟨.fin 1, [], []⟩]⟩

private theorem exP_tidy : (Expr.m (.p [[exPoly], [exPoly]])).Tidy 2 1 (degLE 1) := by
  have h1 : F64.Able 1 := by unfold F64.Able; decide +kernel
  have d0 : Mono.degs (⟨.fin 1, [], []⟩ : Mono F64) = 0 := rfl
  have d1 : Mono.degs (⟨.fin f64Tenth, [1], [f64Var 1]⟩ : Mono F64) = Finsupp.single 1 1 := Var.degs_one _ _ _
  have key : ∀ i < 2, ∀ j < 1, (Expr.m (.p [[exPoly], [exPoly]])).entryD i j = .poly exPoly := by
    intro i hi j hj
    obtain rfl : j = 0 := by omega
    rcases (by omega : i = 0 ∨ i = 1) with rfl | rfl <;> rfl
  refine ⟨⟨rfl, by simp [Expr.grid, Mat.entries]⟩, fun i hi j hj => ?_, fun i hi j hj => ?_, fun i hi j hj => ?_,
    fun i hi j hj => ?_⟩ <;> rw [key i hi j hj]
  · refine ⟨by simp [exPoly], fun m hm => ?_⟩
    rcases List.mem_cons.mp hm with rfl | hm
    · exact mono_ok _ _
    · obtain rfl := List.mem_singleton.mp hm
      exact ⟨rfl, by simp, by simp, by simp⟩
  · intro m hm
    rcases List.mem_cons.mp hm with rfl | hm
    · refine Or.inr ?_
      rw [d1]
      exact single_degLE _ le_rfl
    · obtain rfl := List.mem_singleton.mp hm
      exact Or.inl rfl
  · intro m hm
    rcases List.mem_cons.mp hm with rfl | hm
    · exact able_tenth
    · obtain rfl := List.mem_singleton.mp hm
      exact h1
  · refine onceL_iff.mp ?_
    show (List.map Mono.degs [_, _]).Nodup
    rw [List.map_cons, List.map_cons, d0, d1]
    simp

private theorem exP_coeff {i : ℕ} (hi : i < 2) :
    ((Expr.m (.p [[exPoly], [exPoly]])).entryD i 0).coeffAt (Finsupp.single 1 1) = .fin f64Tenth := by
  rcases (by omega : i = 0 ∨ i = 1) with rfl | rfl <;>
    exact (fco_cons _ _).trans (if_pos (Var.degs_one _ _ _))

/-- The column `A` of matrix type with the entries `0.1 x + 1`: the coefficients of `x` in `A + A`, `A + 0.2 x` and
`3 A`, and `3 A` is rounded. -/
example : (∃ e, (Expr.m (.p [[exPoly], [exPoly]])).plus (.m (.p [[exPoly], [exPoly]])) = .ok e ∧
      (e.entryD 1 0).coeffAt (Finsupp.single 1 1) = .fin (2 * f64Tenth)) ∧
    (∃ e, (Expr.m (.p [[exPoly], [exPoly]])).plus (.s (.mono ⟨.fin (round53 (1 / 5)), [1], [f64Var 1]⟩)) = .ok e ∧
      (e.entryD 1 0).coeffAt (Finsupp.single 1 1) = .fin (round53 (f64Tenth + round53 (1 / 5)))) ∧
    ∃ e, (Expr.m (.p [[exPoly], [exPoly]])).mul (.s (.k (.fin 3))) = .ok e ∧
      (e.entryD 1 0).coeffAt (Finsupp.single 1 1) = .fin (round53 (f64Tenth * 3)) ∧
      round53 (f64Tenth * 3) ≠ f64Tenth * 3 := by
  have h3 : F64.Able 3 := by unfold F64.Able; decide +kernel
  obtain ⟨a, a1, -, a2⟩ := mat_plus_coeffs two_pos one_pos rearrFree_degLE_one degLE_one_flat exP_tidy exP_tidy
    (Or.inr ⟨⟨_, rfl⟩, Or.inr ⟨_, rfl⟩⟩)
  obtain ⟨b, b1, -, b2⟩ := pmat_plus_scalar_coeffs (s := .mono ⟨.fin (round53 (1 / 5)), [1], [f64Var 1]⟩)
    (mono_ok _ _) (numL_single (m := ⟨F64.fin (round53 (1 / 5)), [1], [f64Var 1]⟩) able_fifth)
    (onceL_iff.mp (once_single (⟨F64.fin (round53 (1 / 5)), [1], [f64Var 1]⟩ : Mono F64)))
    (Or.inr (by
      rw [show Mono.degs ⟨F64.fin (round53 (1 / 5)), [1], [f64Var 1]⟩ = Finsupp.single (f64Var 1).id 1 from
        Var.degs_one _ _ _]
      exact single_degLE _ le_rfl)) (by simp) two_pos one_pos rearrFree_degLE_one degLE_one_flat exP_tidy
  obtain ⟨e, e1, -, e2⟩ := pmat_scale_coeffs two_pos one_pos rearrFree_degLE_one degLE_one_flat exP_tidy h3
  refine ⟨⟨a, a1, (a2 1 one_lt_two 0 one_pos _).trans ?_⟩, ⟨b, b1, (b2 1 one_lt_two 0 one_pos _).trans ?_⟩,
    e, e1, (e2 1 one_lt_two 0 one_pos _).trans ?_, by decide +kernel⟩
  · rw [exP_coeff one_lt_two]
    decide +kernel
  · rw [exP_coeff one_lt_two, show (Scalar.mono ⟨F64.fin (round53 (1 / 5)), [1], [f64Var 1]⟩).coeffAt
      (Finsupp.single 1 1) = .fin (round53 (1 / 5)) from (fco_cons _ _).trans (if_pos (Var.degs_one _ _ _))]
    decide +kernel
  · rw [exP_coeff one_lt_two]
    decide +kernel

/-- The matrix `[[0.1], [1]]` of numbers plus 0.2. -/
example : ∃ e, (Expr.m (.k [[F64.fin f64Tenth], [F64.fin 1]])).plus (.s (.k (F64.fin (round53 (1 / 5))))) = .ok e ∧
    (e.entryD 0 0).coeffAt 0 = .fin (round53 (f64Tenth + round53 (1 / 5))) := by
  have h1 : F64.Able 1 := by unfold F64.Able; decide +kernel
  have key : ∀ i < 2, ∀ j < 1, ∃ q, (Expr.m (.k [[F64.fin f64Tenth], [F64.fin 1]])).entryD i j = .k (.fin q) ∧
      F64.Able q := by
    intro i hi j hj
    obtain rfl : j = 0 := by omega
    rcases (by omega : i = 0 ∨ i = 1) with rfl | rfl
    · exact ⟨_, rfl, able_tenth⟩
    · exact ⟨_, rfl, h1⟩
  obtain ⟨e, e1, -, e2⟩ := kmat_plus_k_coeffs (r := 2) (c := 1) two_pos one_pos
    (rows := [[F64.fin f64Tenth], [F64.fin 1]]) (x := .fin (round53 (1 / 5)))
    (by
      refine ⟨⟨rfl, by simp [Expr.grid, Mat.entries]⟩, fun i hi j hj => ?_, fun i hi j hj => ?_, fun i hi j hj => ?_,
        fun i hi j hj => ?_⟩ <;> obtain ⟨q, e, hq⟩ := key i hi j hj <;> rw [e]
      · trivial
      · trivial
      · exact numL_single (N := F64.Value) (m := kToMono (F64.fin q)) hq
      · exact onceL_iff.mp (once_single (kToMono (F64.fin q)))) able_fifth
  refine ⟨e, e1, (e2 0 two_pos 0 one_pos 0).trans ?_⟩
  rw [if_pos rfl, show ((Expr.m (.k [[F64.fin f64Tenth], [F64.fin 1]])).entryD 0 0).coeffAt 0 = .fin f64Tenth from
    (fco_cons _ _).trans (if_pos rfl)]
  decide +kernel

end Verif
