import Verif.Props.CoefsVec

/-!
# C95: products of matrices, coefficient by coefficient

Which `float64` operations compute each coefficient of each entry of a product of two matrices of any kinds: the
products of the entries are added from the first column to the last, from zero.
-/

set_option linter.unusedSectionVars false

namespace Verif

open MvPolynomial

/-! ## Specification -/

/-- An `r` by `c` array of well-formed entries with exponents in `D`, with `float64` numbers, no term repeated. -/
structure Expr.Tidy (r c : ℕ) (D : Set (ℕ →₀ ℕ)) (e : Expr F64) : Prop where
  shape : e.Shape r c
  canon : ∀ i < r, ∀ j < c, (e.entryD i j).Canon
  terms : ∀ i < r, ∀ j < c, (e.entryD i j).TermsIn D
  nums : ∀ i < r, ∀ j < c, (e.entryD i j).NumsValid
  once : ∀ i < r, ∀ j < c, (e.entryD i j).Repeats 1

section Product
variable {r s c : ℕ} {D D1 D2 D3 : Set (ℕ →₀ ℕ)} {a b : Mat F64}

private def Is (D : Set (ℕ →₀ ℕ)) (e : Expr F64) (i j : ℕ) (x : Scalar F64) : Prop :=
  x = e.entryD i j ∧ COpd F64.Value (fun _ => True) D x

private theorem Expr.Tidy.earr {e : Expr F64} (h : e.Tidy r c D) : EArr r c (Is D e) e :=
  (EArr.self h.shape).mono fun i j x hi hj hx => by
    have e1 : e.entryD i j = x := by unfold Expr.entryD; rw [hx]; rfl
    refine ⟨e1.symm, ?_⟩
    rw [← e1]
    exact ⟨good_of (h.canon i hi j hj) (h.terms i hi j hj), h.nums i hi j hj, onceL_iff.mpr (h.once i hi j hj)⟩

private theorem earr_entryD {e : Expr F64} {Q : ℕ → ℕ → Scalar F64 → Prop} (h : EArr r c Q e) {i j : ℕ} (hi : i < r)
    (hj : j < c) : Q i j (e.entryD i j) := by
  obtain ⟨x, h1, h2⟩ := h.get hi hj
  unfold Expr.entryD
  rw [h1]
  exact h2

/-- C95: every coefficient of every entry of a product. -/
theorem mat_mul_coeffs (hr : 0 < r) (hs : 0 < s) (hc : 0 < c) (hD : RearrFree D3) (hF : D3 ⊆ flat)
    (hp : ProdIn D1 D2 D3) (ha : (Expr.m a).Tidy r s D1) (hb : (Expr.m b).Tidy s c D2) :
    ∃ e, (Expr.m a).mul (.m b) = .ok e ∧ e.Tidy r c D3 ∧ ∀ i < r, ∀ j < c, ∀ d,
      (e.entryD i j).coeffAt d =
        accSum (fun k => ((Expr.m a).entryD i k).timesAt ((Expr.m b).entryD k j) d) s := by
  obtain ⟨e, h1, h2, -⟩ := Mat.mul_mat_ok (Qa := Is D1 (.m a)) (Qb := Is D2 (.m b))
    (I := fun i j k => CRes F64.Value (fun _ => True) D3
      fun d => accSum (fun k => ((Expr.m a).entryD i k).timesAt ((Expr.m b).entryD k j) d) k)
    hr hs hc (earr_m_iff.mp ha.earr) (fun _ _ _ h => h.2.good.check) (earr_m_iff.mp hb.earr)
    (fun _ _ _ h => h.2.good.check)
    (fun i j _ _ => ⟨trivial, numL_single f64Laws.zero, once_single _, fun d => by
      refine (fco_cons _ _).trans ?_
      split <;> rfl⟩)
    (fun i j _ _ => stable_coef f64Laws hD hF)
    (fun i j k acc x y _ _ _ hacc hx hy => by
      refine (Scalar.mul_coef f64ProdLaws hD hF hp hx.2 hy.2).mono fun t ht => ?_
      refine (Scalar.plus_coef f64Laws hD hF hacc.opd ht.opd).mono fun z hz => hz.congr fun d => ?_
      unfold csum
      rw [hacc.coef, ht.coef, hx.1, hy.1]
      rfl)
  refine ⟨e, h1, ⟨h2.shape, fun i hi j hj => ?_, fun i hi j hj => ?_, fun i hi j hj => ?_, fun i hi j hj => ?_⟩,
    fun i hi j hj d => ?_⟩
  · exact (good_iff.mp (earr_entryD h2 hi hj).good).1
  · exact (good_iff.mp (earr_entryD h2 hi hj).good).2.1
  · exact (earr_entryD h2 hi hj).nums
  · exact onceL_iff.mp (earr_entryD h2 hi hj).once
  · exact (earr_entryD h2 hi hj).coef d

private theorem timesAt_const {y : Scalar F64} (hy : y.NumsValid) {q : ℚ} (hq : F64.Able q) (d : ℕ →₀ ℕ) :
    y.timesAt (.k (.fin q)) d = GoNum.mul (y.coeffAt d) (.fin q) := conv_const hy hq d

private theorem const_timesAt {y : Scalar F64} (hy : y.NumsValid) (ho : y.Repeats 1) {q : ℚ} (hq : F64.Able q)
    (d : ℕ →₀ ℕ) : (Scalar.k (.fin q)).timesAt y d = GoNum.mul (y.coeffAt d) (.fin q) := by
  rw [← timesAt_const hy hq]
  have vk : (Scalar.k (F64.fin q)).NumsValid := numL_single (m := kToMono (F64.fin q)) (N := F64.Value) hq
  exact (mul_comm_term hy ho vk rfl d).symm

private theorem accSum_congr {t t' : ℕ → F64} {n : ℕ} (h : ∀ k < n, t k = t' k) : accSum t n = accSum t' n := by
  induction n with
  | zero => rfl
  | succ n ih =>
    show GoNum.add (accSum t n) (t n) = GoNum.add (accSum t' n) (t' n)
    rw [ih fun k hk => h k (by omega), h n (by omega)]

private theorem tidy_const {A : ℕ → ℕ → ℚ}
    (hA : ∀ i < r, ∀ k < s, (Expr.m a).entryD i k = .k (.fin (A i k)) ∧ F64.Able (A i k)) (h : (Expr.m a).Shape r s) :
    (Expr.m a).Tidy r s ∅ := by
  refine ⟨h, fun i hi j hj => ?_, fun i hi j hj => ?_, fun i hi j hj => ?_, fun i hi j hj => ?_⟩ <;>
    rw [(hA i hi j hj).1]
  · trivial
  · trivial
  · exact numL_single (m := kToMono (F64.fin (A i j))) (hA i hi j hj).2
  · exact onceL_iff.mp (once_single (kToMono (F64.fin (A i j))))

/-- C95: a matrix of finite numbers times a matrix: one product per column, added from zero. -/
theorem kmat_mul_coeffs {A : ℕ → ℕ → ℚ} (hr : 0 < r) (hs : 0 < s) (hc : 0 < c) (hD : RearrFree D) (hF : D ⊆ flat)
    (h : (Expr.m a).Shape r s)
    (hA : ∀ i < r, ∀ k < s, (Expr.m a).entryD i k = .k (.fin (A i k)) ∧ F64.Able (A i k))
    (hb : (Expr.m b).Tidy s c D) :
    ∃ e, (Expr.m a).mul (.m b) = .ok e ∧ e.Tidy r c D ∧ ∀ i < r, ∀ j < c, ∀ d,
      (e.entryD i j).coeffAt d =
        accSum (fun k => GoNum.mul (((Expr.m b).entryD k j).coeffAt d) (.fin (A i k))) s := by
  obtain ⟨e, h1, h2, h3⟩ := mat_mul_coeffs hr hs hc hD hF (prodIn_const D).symm (tidy_const hA h) hb
  refine ⟨e, h1, h2, fun i hi j hj d => (h3 i hi j hj d).trans (accSum_congr fun k hk => ?_)⟩
  rw [(hA i hi k hk).1]
  exact const_timesAt (hb.nums k hk j hj) (hb.once k hk j hj) (hA i hi k hk).2 d

/-- C95: a matrix times a matrix of finite numbers. -/
theorem mat_mul_k_coeffs {B : ℕ → ℕ → ℚ} (hr : 0 < r) (hs : 0 < s) (hc : 0 < c) (hD : RearrFree D) (hF : D ⊆ flat)
    (ha : (Expr.m a).Tidy r s D) (h : (Expr.m b).Shape s c)
    (hB : ∀ k < s, ∀ j < c, (Expr.m b).entryD k j = .k (.fin (B k j)) ∧ F64.Able (B k j)) :
    ∃ e, (Expr.m a).mul (.m b) = .ok e ∧ e.Tidy r c D ∧ ∀ i < r, ∀ j < c, ∀ d,
      (e.entryD i j).coeffAt d =
        accSum (fun k => GoNum.mul (((Expr.m a).entryD i k).coeffAt d) (.fin (B k j))) s := by
  obtain ⟨e, h1, h2, h3⟩ := mat_mul_coeffs hr hs hc hD hF (prodIn_const D) ha (tidy_const hB h)
  refine ⟨e, h1, h2, fun i hi j hj d => (h3 i hi j hj d).trans (accSum_congr fun k hk => ?_)⟩
  rw [(hB k hk j hj).1]
  exact timesAt_const (ha.nums i hi k hk) (hB k hk j hj).2 d

/-- C95: two matrices with entries of degree at most one. -/
theorem mat_mul_coeffs_linear (hr : 0 < r) (hs : 0 < s) (hc : 0 < c) (ha : (Expr.m a).Tidy r s (degLE 1))
    (hb : (Expr.m b).Tidy s c (degLE 1)) :
    ∃ e, (Expr.m a).mul (.m b) = .ok e ∧ e.Tidy r c (degLE 2) ∧ ∀ i < r, ∀ j < c, ∀ d,
      (e.entryD i j).coeffAt d =
        accSum (fun k => ((Expr.m a).entryD i k).timesAt ((Expr.m b).entryD k j) d) s :=
  mat_mul_coeffs hr hs hc rearrFree_degLE_two degLE_two_flat (prodIn_degLE 1 1) ha hb

end Product

/-! ## Examples -/

/-- `(0.1 0.2; 3 4)` times `(x y; 0.1*y x)`. -/
private def exA : Mat F64 := .k [[.fin f64Tenth, .fin (round53 (1 / 5))], [.fin 3, .fin 4]]

private def exB : Mat F64 :=
  .m [[⟨.fin 1, [1], [f64Var 1]⟩, ⟨.fin 1, [1], [f64Var 2]⟩],
    [⟨.fin f64Tenth, [1], [f64Var 2]⟩, ⟨.fin 1, [1], [f64Var 1]⟩]]

private theorem tenth_able : F64.Able f64Tenth := by unfold F64.Able; decide +kernel

private theorem exB_tidy : (Expr.m exB).Tidy 2 2 (degLE 1) := by
  have key : ∀ i < 2, ∀ j < 2, ∃ q n, (Expr.m exB).entryD i j = .mono ⟨.fin q, [1], [f64Var n]⟩ ∧ F64.Able q := by
    intro i hi j hj
    have h1 : F64.Able 1 := by unfold F64.Able; decide +kernel
    rcases (by omega : i = 0 ∨ i = 1) with rfl | rfl <;> rcases (by omega : j = 0 ∨ j = 1) with rfl | rfl
    · exact ⟨_, _, rfl, h1⟩
    · exact ⟨_, _, rfl, h1⟩
    · exact ⟨_, _, rfl, tenth_able⟩
    · exact ⟨_, _, rfl, h1⟩
  refine ⟨⟨rfl, by decide⟩, fun i hi j hj => ?_, fun i hi j hj => ?_, fun i hi j hj => ?_, fun i hi j hj => ?_⟩ <;>
    obtain ⟨q, n, e, hq⟩ := key i hi j hj <;> rw [e]
  · exact ⟨rfl, by simp, by simp, by
      intro v hv
      rw [List.mem_singleton.mp hv]
      show GoNum.le (F64.inf false) (F64.inf true) = false
      decide +kernel⟩
  · refine Or.inr ?_
    rw [show Mono.degs ⟨F64.fin q, [1], [f64Var n]⟩ = Finsupp.single (f64Var n).id 1 from Var.degs_one _ _ _]
    exact single_degLE _ le_rfl
  · exact numL_single (m := ⟨F64.fin q, [1], [f64Var n]⟩) hq
  · exact onceL_iff.mp (once_single (⟨F64.fin q, [1], [f64Var n]⟩ : Mono F64))

/-- The coefficient of `y` in the entry `(0, 0)` is `(0 + 0*0.1) + 0.1*0.2` in `float64`. -/
example : ∃ e, (Expr.m exA).mul (.m exB) = .ok e ∧
    (e.entryD 0 0).coeffAt (Finsupp.single 2 1) = .fin (round53 (f64Tenth * round53 (1 / 5))) := by
  obtain ⟨e, h1, -, h2⟩ := kmat_mul_coeffs (a := exA) (b := exB)
    (A := fun i k => if i = 0 then if k = 0 then f64Tenth else round53 (1 / 5) else if k = 0 then 3 else 4)
    (r := 2) (s := 2) (c := 2) (by decide) (by decide) (by decide) rearrFree_degLE_one degLE_one_flat ⟨rfl, by decide⟩
    (by
      intro i hi k hk
      have h1 : F64.Able (round53 (1 / 5)) := by unfold F64.Able; decide +kernel
      have h2 : F64.Able 3 := by unfold F64.Able; decide +kernel
      have h3 : F64.Able 4 := by unfold F64.Able; decide +kernel
      rcases (by omega : i = 0 ∨ i = 1) with rfl | rfl <;> rcases (by omega : k = 0 ∨ k = 1) with rfl | rfl
      · exact ⟨rfl, tenth_able⟩
      · exact ⟨rfl, h1⟩
      · exact ⟨rfl, h2⟩
      · exact ⟨rfl, h3⟩) exB_tidy
  refine ⟨e, h1, (h2 0 (by decide) 0 (by decide) _).trans ?_⟩
  have c0 : ((Expr.m exB).entryD 0 0).coeffAt (Finsupp.single 2 1) = .fin 0 := by
    refine (fco_cons _ _).trans (if_neg ?_)
    rw [show Mono.degs ⟨F64.fin 1, [1], [f64Var 1]⟩ = Finsupp.single (f64Var 1).id 1 from Var.degs_one _ _ _,
      Finsupp.single_left_inj one_ne_zero]
    decide
  have c1 : ((Expr.m exB).entryD 1 0).coeffAt (Finsupp.single 2 1) = .fin f64Tenth := by
    refine (fco_cons _ _).trans (if_pos ?_)
    exact Var.degs_one _ _ _
  show GoNum.add (GoNum.add GoNum.zero (GoNum.mul (((Expr.m exB).entryD 0 0).coeffAt _) _))
    (GoNum.mul (((Expr.m exB).entryD 1 0).coeffAt _) _) = _
  rw [c0, c1]
  decide +kernel

end Verif
