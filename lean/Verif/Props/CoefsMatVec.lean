import Verif.Props.CoefsArr

/-!
# C99: products of matrices and vectors, coefficient by coefficient

Which `float64` operations compute each coefficient of each entry of a matrix times a vector: as for two matrices
(C95), the products are added from the first column to the last, from zero.
-/

set_option linter.unusedSectionVars false

namespace Verif

open MvPolynomial

section Product
variable {r s : ℕ} {D1 D2 D3 : Set (ℕ →₀ ℕ)}

private def Is (D : Set (ℕ →₀ ℕ)) (e : Expr F64) (i j : ℕ) (x : Scalar F64) : Prop :=
  x = e.entryD i j ∧ COpd F64.Value (fun _ => True) D x

private theorem Expr.Tidy.earr {c : ℕ} {D : Set (ℕ →₀ ℕ)} {e : Expr F64} (h : e.Tidy r c D) : EArr r c (Is D e) e :=
  (EArr.self h.shape).mono fun i j x hi hj hx => by
    have e1 : e.entryD i j = x := by unfold Expr.entryD; rw [hx]; rfl
    refine ⟨e1.symm, ?_⟩
    rw [← e1]
    exact ⟨good_of (h.canon i hi j hj) (h.terms i hi j hj), h.nums i hi j hj, onceL_iff.mpr (h.once i hi j hj)⟩

private theorem res_of {e : Expr F64} {D : Set (ℕ →₀ ℕ)} {f : ℕ → (ℕ →₀ ℕ) → F64}
    (h : EArr r 1 (fun i _ => CRes F64.Value (fun _ => True) D (f i)) e) :
    e.Tidy r 1 D ∧ ∀ i < r, ∀ d, (e.entryD i 0).coeffAt d = f i d := by
  have g : ∀ i < r, ∀ j < 1, CRes F64.Value (fun _ => True) D (f i) (e.entryD i j) := fun i hi j hj => by
    obtain ⟨x, h1, h2⟩ := h.get hi hj
    unfold Expr.entryD
    rw [h1]
    exact h2
  exact ⟨⟨h.shape, fun i hi j hj => (good_iff.mp (g i hi j hj).good).1,
    fun i hi j hj => (good_iff.mp (g i hi j hj).good).2.1, fun i hi j hj => (g i hi j hj).nums,
    fun i hi j hj => onceL_iff.mp (g i hi j hj).once⟩, fun i hi => (g i hi 0 one_pos).coef⟩

private theorem zero_res {t : ℕ → (ℕ →₀ ℕ) → F64} :
    CRes F64.Value (fun _ => True) D3 (fun d => accSum (fun k => t k d) 0) (.k GoNum.zero) :=
  ⟨trivial, numL_single f64Laws.zero, once_single _, fun d => by
    refine (fco_cons _ _).trans ?_
    split <;> rfl⟩

section Laws
variable (hD : RearrFree D3) (hF : D3 ⊆ flat)
include hD hF

private theorem add_res {t : ℕ → (ℕ →₀ ℕ) → F64} {k : ℕ} {acc x : Scalar F64}
    (hacc : CRes F64.Value (fun _ => True) D3 (fun d => accSum (fun k => t k d) k) acc)
    (hx : CRes F64.Value (fun _ => True) D3 (t k) x) :
    Go.Ok (acc.plus x) (CRes F64.Value (fun _ => True) D3 fun d => accSum (fun k => t k d) (k + 1)) :=
  (Scalar.plus_coef f64Laws hD hF hacc.opd hx.opd).mono fun z hz => hz.congr fun d => by
    unfold csum
    rw [hacc.coef, hx.coef]
    rfl

variable (hp : ProdIn D1 D2 D3)
include hp

private theorem mul_res {x y : Scalar F64} (hx : COpd F64.Value (fun _ => True) D1 x)
    (hy : COpd F64.Value (fun _ => True) D2 y) :
    Go.Ok (x.mul y) (CRes F64.Value (fun _ => True) D3 (x.timesAt y)) :=
  Scalar.mul_coef f64ProdLaws hD hF hp hx hy

/-- The product with the factors exchanged, if the first has one term. -/
private theorem mul_res_swap {x y : Scalar F64} {m : Mono F64} (hm : x.terms = [m])
    (hx : COpd F64.Value (fun _ => True) D1 x) (hy : COpd F64.Value (fun _ => True) D2 y) :
    Go.Ok (y.mul x) (CRes F64.Value (fun _ => True) D3 (x.timesAt y)) :=
  (Scalar.mul_coef f64ProdLaws hD hF hp.symm hy hx).mono fun _ h => h.congr fun d =>
    mul_comm_term hy.nums (onceL_iff.mp hy.once) hx.nums hm d

/-- C99: a matrix of numbers, variables or polynomials, or one row of monomials, times a vector of variables. -/
theorem mat_mul_vars_coeffs (hr : 0 < r) (hs : 0 < s) {a : Mat F64} {l : List (Var F64)}
    (ha : (Expr.m a).Tidy r s D1) (hb : (Expr.v (.v l)).Tidy s 1 D2) (hk : (∃ rows, a = .m rows) → r = 1) :
    ∃ e, (Expr.m a).mul (.v (.v l)) = .ok e ∧ e.Tidy r 1 D3 ∧ ∀ i < r, ∀ d,
      (e.entryD i 0).coeffAt d =
        accSum (fun k => ((Expr.m a).entryD i k).timesAt ((Expr.v (.v l)).entryD k 0) d) s := by
  have key : Go.Ok ((Expr.m a).mul (.v (.v l))) (EArr r 1 fun i _ => CRes F64.Value (fun _ => True) D3 fun d =>
      accSum (fun k => ((Expr.m a).entryD i k).timesAt ((Expr.v (.v l)).entryD k 0) d) s) := by
    have ea := earr_m_iff.mp ha.earr
    have eb := earr_v_iff.mp hb.earr
    have ca : ∀ i j x, Is D1 (.m a) i j x → x.check = .ok () := fun _ _ _ h => h.2.good.check
    have cb : ∀ i x, Is D2 (.v (.v l)) i 0 x → x.check = .ok () := fun _ _ h => h.2.good.check
    have st : ∀ i k, Stable (CRes F64.Value (fun _ => True) D3 fun d =>
        accSum (fun k => ((Expr.m a).entryD i k).timesAt ((Expr.v (.v l)).entryD k 0) d) k) := fun i k =>
      stable_coef f64Laws hD hF
    cases a with
    | k rows =>
      rcases (by omega : r = 1 ∨ 1 < r) with rfl | h1
      · refine (kmMul_vec_one_ok hs ea eb cb (I := fun k => CRes F64.Value (fun _ => True) D3 fun d =>
            accSum (fun k => ((Expr.m (.k rows)).entryD 0 k).timesAt ((Expr.v (.v l)).entryD k 0) d) k)
          zero_res (st 0 s) fun k acc x v _ hacc hx hv => ?_).mono ?_
        · refine (mul_res_swap hD hF hp rfl hx.2 hv.2).mono fun t ht => add_res hD hF hacc ?_
          rw [← hx.1, ← hv.1]
          exact ht
        · rintro e ⟨x, rfl, hx⟩
          exact earr_s hx
      · refine (kmMul_vec_ok h1 hs ea eb cb
          (T := fun i k => CRes F64.Value (fun _ => True) D3
            (((Expr.m (.k rows)).entryD i k).timesAt ((Expr.v (.v l)).entryD k 0)))
          (I := fun i k => CRes F64.Value (fun _ => True) D3 fun d =>
            accSum (fun k => ((Expr.m (.k rows)).entryD i k).timesAt ((Expr.v (.v l)).entryD k 0) d) k)
          (fun _ _ => zero_res) (fun i k _ _ => stable_coef f64Laws hD hF) (fun i k _ _ => st i k)
          (fun i k x v _ _ hx hv => ?_) (fun i k acc t _ _ hacc ht => add_res hD hF hacc ht)).mono fun _ h => h.1
        rw [← hx.1, ← hv.1]
        exact mul_res hD hF hp hx.2 hv.2
    | v rows =>
      refine (vmMul_vec_ok hr hs ea ca eb cb
        (T := fun i k => CRes F64.Value (fun _ => True) D3
          (((Expr.m (.v rows)).entryD i k).timesAt ((Expr.v (.v l)).entryD k 0)))
        (I := fun i k => CRes F64.Value (fun _ => True) D3 fun d =>
          accSum (fun k => ((Expr.m (.v rows)).entryD i k).timesAt ((Expr.v (.v l)).entryD k 0) d) k)
        (fun i k _ _ => stable_coef f64Laws hD hF) (fun i k _ _ => st i k)
        (fun i k x v _ _ hx hv => ?_) (fun i t _ ht => ?_)
        (fun i k acc t _ _ hacc ht => add_res hD hF hacc ht)).mono fun _ h => h.1
      · rw [← hx.1, ← hv.1]
        exact mul_res hD hF hp hx.2 hv.2
      · have h := add_res (k := 0) (t := fun k => ((Expr.m (.v rows)).entryD i k).timesAt ((Expr.v (.v l)).entryD k 0))
          hD hF zero_res ht
        refine ⟨h, (Scalar.plus_coef f64Laws hD hF ht.opd (zero_res (t := fun _ _ => .fin 0)).opd).mono fun z hz =>
          hz.congr fun d => ?_⟩
        rw [csum_comm f64Laws]
        unfold csum
        rw [ht.coef, (zero_res (D3 := D3) (t := fun _ _ => .fin 0)).coef]
        rfl
    | m rows =>
      obtain rfl := hk ⟨_, rfl⟩
      refine (mmMul_vec_one_ok hs ea ca eb cb (I := fun k => CRes F64.Value (fun _ => True) D3 fun d =>
          accSum (fun k => ((Expr.m (.m rows)).entryD 0 k).timesAt ((Expr.v (.v l)).entryD k 0) d) k)
        zero_res (st 0 s) fun k acc x v _ hacc hx hv => ?_).mono ?_
      · refine Go.Ok.mono (mul_res hD hF hp hx.2 hv.2) fun t ht => add_res hD hF hacc ?_
        rw [← hx.1, ← hv.1]
        exact ht
      · rintro e ⟨x, rfl, hx⟩
        exact earr_s hx
    | p rows =>
      refine (pmMul_vec_ok hr hs ea ca eb cb (I := fun i k => CRes F64.Value (fun _ => True) D3 fun d =>
          accSum (fun k => ((Expr.m (.p rows)).entryD i k).timesAt ((Expr.v (.v l)).entryD k 0) d) k)
        (fun _ _ => zero_res) (fun i _ => st i s) fun i k acc x v _ _ hacc hx hv => ?_).mono fun _ h => h.1
      refine Go.Ok.mono (mul_res hD hF hp hx.2 hv.2) fun t ht => add_res hD hF hacc ?_
      rw [← hx.1, ← hv.1]
      exact ht
  obtain ⟨e, h1, h2⟩ := key
  obtain ⟨h3, h4⟩ := res_of h2
  exact ⟨e, h1, h3, h4⟩

/-- C99: a matrix of variables times a vector of numbers. -/
theorem vmat_mul_kvec_coeffs (hr : 0 < r) {rows : List (List (Var F64))} {l : List F64}
    (ha : (Expr.m (.v rows)).Tidy r s D1) (hb : (Expr.v (.k l)).Tidy s 1 D2) :
    ∃ e, (Expr.m (.v rows)).mul (.v (.k l)) = .ok e ∧ e.Tidy r 1 D3 ∧ ∀ i < r, ∀ d,
      (e.entryD i 0).coeffAt d =
        accSum (fun k => ((Expr.m (.v rows)).entryD i k).timesAt ((Expr.v (.k l)).entryD k 0) d) s := by
  obtain ⟨e, h1, h2, -⟩ := vmMul_kvec_ok hr (earr_m_iff.mp ha.earr) (fun _ _ _ h => h.2.good.check)
    (earr_v_iff.mp hb.earr) (I := fun i k => CRes F64.Value (fun _ => True) D3 fun d =>
      accSum (fun k => ((Expr.m (.v rows)).entryD i k).timesAt ((Expr.v (.k l)).entryD k 0) d) k)
    (fun _ _ => zero_res) (fun i _ => stable_coef f64Laws hD hF) (fun i k acc v x _ _ hacc hv hx => by
      refine Go.Ok.mono (mul_res hD hF hp hv.2 hx.2) fun t ht => add_res hD hF hacc ?_
      rw [← hv.1, ← hx.1]
      exact ht)
  obtain ⟨h3, h4⟩ := res_of h2
  exact ⟨e, h1, h3, h4⟩

end Laws

private theorem accSum_congr {t t' : ℕ → F64} {n : ℕ} (h : ∀ k < n, t k = t' k) : accSum t n = accSum t' n := by
  induction n with
  | zero => rfl
  | succ n ih =>
    show GoNum.add (accSum t n) (t n) = GoNum.add (accSum t' n) (t' n)
    rw [ih fun k hk => h k (by omega), h n (by omega)]

private theorem var_coeffAt (v : Var F64) (d : ℕ →₀ ℕ) :
    (Scalar.var v).coeffAt d = if Finsupp.single v.id 1 = d then .fin 1 else .fin 0 := by
  refine (fco_cons _ _).trans ?_
  rw [show v.toMono.degs = Finsupp.single v.id 1 from Var.degs_one _ _ _]
  rfl

private theorem tidy_vars {c : ℕ} {e : Expr F64} {V : ℕ → ℕ → Var F64} (h : e.Shape r c)
    (hV : ∀ i < r, ∀ k < c, e.entryD i k = .var (V i k) ∧ (V i k).OK) : e.Tidy r c (degLE 1) := by
  have one : F64.Able 1 := by exact_mod_cast F64.able_small (k := 1) (by norm_num)
  refine ⟨h, fun i hi j hj => ?_, fun i hi j hj => ?_, fun i hi j hj => ?_, fun i hi j hj => ?_⟩ <;>
    rw [(hV i hi j hj).1]
  · exact (hV i hi j hj).2
  · exact single_degLE _ le_rfl
  · exact numL_single (N := F64.Value) (m := (V i j).toMono) one
  · exact onceL_iff.mp (once_single (V i j).toMono)

/-- C99: a matrix of variables times a vector of finite numbers.  The coefficient of a variable in a row is the sum
of the numbers in the columns where the row has this variable, from the first to the last; all other coefficients
are zero. -/
theorem vmat_mul_kvec_rows (hr : 0 < r) {rows : List (List (Var F64))} {l : List F64} {V : ℕ → ℕ → Var F64}
    {X : ℕ → ℚ} (sa : (Expr.m (.v rows)).Shape r s) (sb : (Expr.v (.k l)).Shape s 1)
    (hV : ∀ i < r, ∀ k < s, (Expr.m (.v rows)).entryD i k = .var (V i k) ∧ (V i k).OK)
    (hX : ∀ k < s, (Expr.v (.k l)).entryD k 0 = .k (.fin (X k)) ∧ F64.Able (X k)) :
    ∃ e, (Expr.m (.v rows)).mul (.v (.k l)) = .ok e ∧ e.Tidy r 1 (degLE 1) ∧ ∀ i < r, ∀ d,
      (e.entryD i 0).coeffAt d =
        accSum (fun k => if Finsupp.single (V i k).id 1 = d then .fin (X k) else .fin 0) s := by
  have one : F64.Able 1 := by exact_mod_cast F64.able_small (k := 1) (by norm_num)
  have ta := tidy_vars sa hV
  have tb : (Expr.v (.k l)).Tidy s 1 ∅ := by
    refine ⟨sb, fun i hi j hj => ?_, fun i hi j hj => ?_, fun i hi j hj => ?_, fun i hi j hj => ?_⟩ <;>
      obtain rfl : j = 0 := by omega
    all_goals rw [(hX i hi).1]
    · trivial
    · trivial
    · exact numL_single (N := F64.Value) (m := kToMono (F64.fin (X i))) (hX i hi).2
    · exact onceL_iff.mp (once_single (kToMono (F64.fin (X i))))
  obtain ⟨e, h1, h2, h3⟩ := vmat_mul_kvec_coeffs rearrFree_degLE_one degLE_one_flat (prodIn_const (degLE 1)) hr ta tb
  refine ⟨e, h1, h2, fun i hi d => (h3 i hi d).trans (accSum_congr fun k hk => ?_)⟩
  rw [(hV i hi k hk).1, (hX k hk).1]
  refine (conv_const (s := .var (V i k)) (numL_single (m := (V i k).toMono) one) (hX k hk).2 d).trans ?_
  rw [var_coeffAt]
  split
  · rw [F64.mul_commutes]
    exact F64.mul_one_value (x := .fin (X k)) (hX k hk).2
  · exact F64.zero_mul_fin _

/-- C99: for linear entries times variables, the products of degree two are covered. -/
theorem mat_mul_vars_coeffs_linear (hr : 0 < r) (hs : 0 < s) {a : Mat F64} {l : List (Var F64)}
    (ha : (Expr.m a).Tidy r s (degLE 1)) (hb : (Expr.v (.v l)).Tidy s 1 (degLE 1))
    (hk : (∃ rows, a = .m rows) → r = 1) :
    ∃ e, (Expr.m a).mul (.v (.v l)) = .ok e ∧ e.Tidy r 1 (degLE 2) ∧ ∀ i < r, ∀ d,
      (e.entryD i 0).coeffAt d =
        accSum (fun k => ((Expr.m a).entryD i k).timesAt ((Expr.v (.v l)).entryD k 0) d) s :=
  mat_mul_vars_coeffs rearrFree_degLE_two degLE_two_flat (prodIn_degLE 1 1) hr hs ha hb hk

end Product

/-! ## Examples -/

/-- `[[x, x], [x, y]] * [0.1, 0.2]`: the coefficient of `x` in the first row is 0.1 + 0.2 of `float64`, in the second
row it is 0.1. -/
example : ∃ e, (Expr.m (.v [[f64Var 1, f64Var 1], [f64Var 1, f64Var 2]])).mul
      (.v (.k [F64.fin f64Tenth, F64.fin (round53 (1 / 5))])) = .ok e ∧
    (e.entryD 0 0).coeffAt (Finsupp.single 1 1) = .fin (round53 (f64Tenth + round53 (1 / 5))) ∧
    (e.entryD 1 0).coeffAt (Finsupp.single 1 1) = .fin f64Tenth := by
  have h1 : F64.Able f64Tenth := by unfold F64.Able; decide +kernel
  have h2 : F64.Able (round53 (1 / 5)) := by unfold F64.Able; decide +kernel
  have hv : ∀ n, (f64Var n).OK := fun n => by
    show GoNum.le (F64.inf false) (F64.inf true) = false
    decide +kernel
  obtain ⟨e, e1, -, e2⟩ := vmat_mul_kvec_rows (r := 2) (s := 2) two_pos
    (rows := [[f64Var 1, f64Var 1], [f64Var 1, f64Var 2]]) (l := [F64.fin f64Tenth, F64.fin (round53 (1 / 5))])
    (V := fun i k => if i = 1 ∧ k = 1 then f64Var 2 else f64Var 1)
    (X := fun k => if k = 0 then f64Tenth else round53 (1 / 5))
    ⟨rfl, by simp [Expr.grid, Mat.entries]⟩ ⟨rfl, by simp [Expr.grid, Vec.entries]⟩
    (by
      intro i hi k hk
      rcases (by omega : i = 0 ∨ i = 1) with rfl | rfl <;> rcases (by omega : k = 0 ∨ k = 1) with rfl | rfl <;>
        exact ⟨rfl, hv _⟩)
    (by
      intro k hk
      rcases (by omega : k = 0 ∨ k = 1) with rfl | rfl
      · exact ⟨rfl, h1⟩
      · exact ⟨rfl, h2⟩)
  have hid : (f64Var 1).id = 1 := rfl
  have hid2 : (Finsupp.single (f64Var 2).id 1 : ℕ →₀ ℕ) ≠ Finsupp.single 1 1 := by
    rw [Ne, Finsupp.single_left_inj one_ne_zero]
    decide
  refine ⟨e, e1, (e2 0 two_pos _).trans ?_, (e2 1 one_lt_two _).trans ?_⟩
  · simp [accSum, hid]
    decide +kernel
  · simp [accSum, hid, hid2]
    decide +kernel

/-- `[[x, y], [y, x]] * [x, y]`: the coefficient of `x*y` in the second row is `(0 + 1*1) + 1*1`. -/
example : ∃ e, (Expr.m (.v [[f64Var 1, f64Var 2], [f64Var 2, f64Var 1]])).mul (.v (.v [f64Var 1, f64Var 2])) = .ok e ∧
    e.Tidy 2 1 (degLE 2) ∧
    (e.entryD 1 0).coeffAt (Finsupp.single 1 1 + Finsupp.single 2 1) = .fin 2 := by
  have hv : ∀ n, (f64Var n).OK := fun n => by
    show GoNum.le (F64.inf false) (F64.inf true) = false
    decide +kernel
  have one : F64.Able 1 := by exact_mod_cast F64.able_small (k := 1) (by norm_num)
  obtain ⟨e, e1, e2, e3⟩ := mat_mul_vars_coeffs_linear (r := 2) (s := 2) two_pos two_pos
    (a := .v [[f64Var 1, f64Var 2], [f64Var 2, f64Var 1]]) (l := [f64Var 1, f64Var 2])
    (tidy_vars (V := fun i k => if i = k then f64Var 1 else f64Var 2) ⟨rfl, by simp [Expr.grid, Mat.entries]⟩ (by
      intro i hi k hk
      rcases (by omega : i = 0 ∨ i = 1) with rfl | rfl <;> rcases (by omega : k = 0 ∨ k = 1) with rfl | rfl <;>
        exact ⟨rfl, hv _⟩))
    (tidy_vars (V := fun i _ => if i = 0 then f64Var 1 else f64Var 2) ⟨rfl, by simp [Expr.grid, Vec.entries]⟩ (by
      intro i hi k hk
      obtain rfl : k = 0 := by omega
      rcases (by omega : i = 0 ∨ i = 1) with rfl | rfl <;> exact ⟨rfl, hv _⟩))
    (by rintro ⟨_, h⟩; cases h)
  have key : ∀ v w : Var F64, (Scalar.var v).timesAt (.var w) (Finsupp.single v.id 1 + Finsupp.single w.id 1) = .fin 1 := by
    intro v w
    refine (conv_single f64ProdLaws (r := w.toMono) (l := (Scalar.var v).terms)
      (numL_single (m := v.toMono) one) one).trans ?_
    have dv : v.toMono.degs = Finsupp.single v.id 1 := Var.degs_one _ _ _
    have dw : w.toMono.degs = Finsupp.single w.id 1 := Var.degs_one _ _ _
    have := lshift_one (d := Finsupp.single v.id 1 + Finsupp.single w.id 1) (m := v.toMono) (r := w.toMono) f64ProdLaws
    refine this.trans ?_
    rw [dv, dw, if_pos (add_comm _ _)]
    show GoNum.mul (F64.fin 1) (.fin 1) = .fin 1
    decide +kernel
  refine ⟨e, e1, e2, (e3 1 one_lt_two _).trans ?_⟩
  show GoNum.add (GoNum.add (.fin 0) ((Scalar.var (f64Var 2)).timesAt (.var (f64Var 1)) _))
    ((Scalar.var (f64Var 1)).timesAt (.var (f64Var 2)) _) = _
  rw [show (Finsupp.single 1 1 + Finsupp.single 2 1 : ℕ →₀ ℕ) =
    Finsupp.single (f64Var 1).id 1 + Finsupp.single (f64Var 2).id 1 from rfl, key, add_comm, key]
  decide +kernel

end Verif
