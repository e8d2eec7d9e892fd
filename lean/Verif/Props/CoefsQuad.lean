import Verif.Props.CoefsMat

/-!
# C91: quadratic forms keep the numbers of their matrix

`x.Transpose().Multiply(Q).Multiply(x)` in `float64`: the coefficient of `x_i²` is `Q_ii`, that of `x_i x_j` is
the one `float64` sum `Q_ij + Q_ji`.  A row of numbers times a vector of variables, the linear form of an
objective, keeps its numbers too.
-/

set_option linter.unusedSectionVars false

namespace Verif

open MvPolynomial

/-! ## Sums with few terms -/

/-- The first `k` numbers, added up from left to right. -/
def accSum (t : ℕ → F64) : ℕ → F64
  | 0 => GoNum.zero
  | k + 1 => GoNum.add (accSum t k) (t k)

section Acc
variable {t : ℕ → F64}

theorem accSum_value (k : ℕ) : (accSum t k).Value := by
  cases k with
  | zero => exact f64Laws.zero
  | succ k => exact F64.value_add _ _

theorem accSum_skip {m : ℕ} (k : ℕ) (hk : m ≤ k) (h : ∀ i, m ≤ i → i < k → t i = .fin 0) :
    accSum t k = accSum t m := by
  induction k with
  | zero =>
    obtain rfl : m = 0 := by omega
    rfl
  | succ k ih =>
    by_cases e : m = k + 1
    · rw [e]
    · show GoNum.add _ _ = _
      rw [h k (by omega) (by omega), ih (by omega) fun i h1 h2 => h i h1 (by omega)]
      exact f64Laws.add_zero _ (accSum_value m)

theorem accSum_none {n : ℕ} (h : ∀ k < n, t k = .fin 0) : accSum t n = .fin 0 :=
  accSum_skip n (Nat.zero_le _) fun i _ hi => h i hi

theorem accSum_one {n i : ℕ} (hi : i < n) (hv : (t i).Value) (h : ∀ k < n, k ≠ i → t k = .fin 0) :
    accSum t n = t i := by
  rw [accSum_skip (m := i + 1) n (by omega) fun k h1 h2 => h k h2 (by omega)]
  show GoNum.add (accSum t i) (t i) = _
  rw [accSum_none fun k hk => h k (by omega) (by omega)]
  exact f64Laws.zero_add _ hv

theorem accSum_two {n i j : ℕ} (hi : i < j) (hj : j < n) (hv : (t i).Value)
    (h : ∀ k < n, k ≠ i → k ≠ j → t k = .fin 0) : accSum t n = GoNum.add (t i) (t j) := by
  rw [accSum_skip (m := j + 1) n (by omega) fun k h1 h2 => h k h2 (by omega) (by omega)]
  show GoNum.add (accSum t j) (t j) = _
  rw [accSum_one hi hv fun k h1 h2 => h k (by omega) h2 (by omega)]

end Acc

/-! ## One row times a vector of variables -/

/-- The coefficients after multiplying with the variable `i`. -/
noncomputable def shiftCo (f : (ℕ →₀ ℕ) → F64) (i : ℕ) (d : ℕ →₀ ℕ) : F64 :=
  if d i = 0 then .fin 0 else f (d - Finsupp.single i 1)

section Row
variable {P : Var F64 → Prop} {D D' : Set (ℕ →₀ ℕ)} {n : ℕ} {vs : List (Var F64)} {w : ℕ → ℕ}

private theorem opd_var {v : Var F64} (hv : v.OK) (hP : P v) : COpd F64.Value P (degLE 1) (.var v) :=
  ⟨good_mentions (s := .var v) hv (by
    show _ ∈ degLE 1
    simp [degLE]) (by rintro w rfl; exact hP), numL_single f64Laws.one, once_single _⟩

theorem conv_var_coef {f : (ℕ →₀ ℕ) → F64} {s : Scalar F64} (hs : CRes F64.Value P D f s) (v : Var F64) (d : ℕ →₀ ℕ) :
    conv s.terms [v.toMono] d = shiftCo f v.id d := by
  have hd : v.toMono.degs = Finsupp.single v.id 1 := Var.degs_one _ _ _
  rw [conv_single f64ProdLaws hs.nums f64Laws.one, hd]
  unfold shiftCo
  have h1 : v.toMono.coeff = GoNum.one := rfl
  rw [h1]
  by_cases h : ∃ m ∈ s.terms, m.degs + Finsupp.single v.id 1 = d
  · rw [lshift_pos h, F64.mul_one_value (fco_num f64Laws hs.nums), hs.coef, if_neg]
    obtain ⟨m, -, rfl⟩ := h
    simp
  · rw [lshift_neg h]
    split
    · rfl
    · rename_i h0
      rw [← hs.coef, fco_none]
      intro m hm e
      refine h ⟨m, hm, ?_⟩
      rw [e]
      refine tsub_add_cancel_of_le ?_
      rw [Finsupp.single_le_iff]
      omega

private theorem mul_var {f : (ℕ →₀ ℕ) → F64} {s : Scalar F64} (hD : RearrFree D') (hF : D' ⊆ flat)
    (hp : ProdIn D (degLE 1) D') (hs : CRes F64.Value P D f s) {v : Var F64} (hv : v.OK) (hP : P v) :
    Go.Ok (s.mul (.var v)) (CRes F64.Value P D' (shiftCo f v.id)) ∧
    Go.Ok ((Scalar.var v).mul s) (CRes F64.Value P D' (shiftCo f v.id)) := by
  constructor
  · exact (Scalar.mul_coef f64ProdLaws hD hF hp hs.opd (opd_var hv hP)).mono fun r hr => hr.congr (conv_var_coef hs v)
  · refine (Scalar.mul_coef f64ProdLaws hD hF hp.symm (opd_var hv hP) hs.opd).mono fun r hr => hr.congr fun d => ?_
    refine Eq.trans ?_ (conv_var_coef hs v d)
    exact (conv_comm_single f64ProdLaws hs.nums hs.once f64Laws.one).symm

private theorem zero_res {f : ℕ → (ℕ →₀ ℕ) → F64} : CRes F64.Value P D (fun d => accSum (fun k => shiftCo (f k) (w k) d) 0) (.k GoNum.zero) :=
  ⟨trivial, numL_single f64Laws.zero, once_single _, fun d => by
      show (if _ then GoNum.zero else GoNum.zero) = _
      split <;> rfl⟩

/-- A matrix with one row, whatever its kind, times a vector of variables. -/
theorem row_vars_coef (hD : RearrFree D') (hF : D' ⊆ flat) (hp : ProdIn D (degLE 1) D') (hn : 0 < n)
    {f : ℕ → (ℕ →₀ ℕ) → F64} {a : Mat F64} (ha : MArr 1 n (fun _ k => CRes F64.Value P D (f k)) a)
    (hb : VArr n (fun k s => ∃ v : Var F64, v.OK ∧ P v ∧ s = .var v ∧ v.id = w k) (.v vs)) :
    Go.Ok ((Expr.m a).mul (.v (.v vs))) fun e => ∃ s, e = .s s ∧
      CRes F64.Value P D' (fun d => accSum (fun k => shiftCo (f k) (w k) d) n) s := by
  have hca : ∀ (i j : ℕ) (x : Scalar F64), CRes F64.Value P D (f j) x → x.check = .ok () := fun _ _ _ h => h.good.check
  have hcb : ∀ (i : ℕ) (x : Scalar F64), (∃ v : Var F64, v.OK ∧ P v ∧ x = .var v ∧ v.id = w i) → x.check = .ok () := by
    rintro i x ⟨v, h1, -, rfl, -⟩
    exact Var.check_iff.mpr h1
  have step : ∀ k acc t, CRes F64.Value P D' (fun d => accSum (fun k => shiftCo (f k) (w k) d) k) acc →
      CRes F64.Value P D' (shiftCo (f k) (w k)) t →
      Go.Ok (acc.plus t) (CRes F64.Value P D' fun d => accSum (fun k => shiftCo (f k) (w k) d) (k + 1)) := by
    intro k acc t h1 h2
    refine (Scalar.plus_coef f64Laws hD hF h1.opd h2.opd).mono fun r hr => hr.congr fun d => ?_
    unfold csum
    rw [h1.coef, h2.coef]
    rfl
  have step' : ∀ t, CRes F64.Value P D' (shiftCo (f 0) (w 0)) t →
      Go.Ok (t.plus (.k GoNum.zero)) (CRes F64.Value P D' fun d => accSum (fun k => shiftCo (f k) (w k) d) 1) := by
    intro t h2
    have h1 := zero_res (P := P) (D := D') (f := f) (w := w)
    refine (Scalar.plus_coef f64Laws hD hF h2.opd h1.opd).mono fun r hr => hr.congr fun d => ?_
    rw [csum_comm f64Laws]
    unfold csum
    rw [h1.coef, h2.coef]
    rfl
  cases a with
  | k rows =>
    refine kmMul_vec_one_ok hn ha hb hcb (I := fun k => CRes F64.Value P D' fun d => accSum (fun k => shiftCo (f k) (w k) d) k)
      zero_res (stable_coef f64Laws hD hF) ?_
    rintro k acc x v _ hacc hx ⟨v', h1, h2, h3, h4⟩
    cases h3
    refine (mul_var hD hF hp hx h1 h2).2.mono fun t ht => step k acc t hacc ?_
    rwa [h4] at ht
  | v rows =>
    refine (vmMul_vec_ok (by decide) hn ha hca hb hcb
      (T := fun _ k => CRes F64.Value P D' (shiftCo (f k) (w k)))
      (I := fun _ k => CRes F64.Value P D' fun d => accSum (fun k => shiftCo (f k) (w k) d) k)
      (fun _ _ _ _ => stable_coef f64Laws hD hF) (fun _ _ _ _ => stable_coef f64Laws hD hF) ?_
      (fun i t _ ht => ⟨step 0 _ t zero_res ht, step' t ht⟩) (fun i k acc t _ _ => step k acc t)).mono ?_
    · rintro i k x v _ _ hx ⟨v', h1, h2, h3, h4⟩
      cases h3
      have := (mul_var hD hF hp hx h1 h2).1
      rwa [h4] at this
    · rintro e ⟨h1, h2, -⟩
      obtain ⟨s, rfl⟩ := h2 rfl
      exact ⟨s, rfl, earr_s_iff.mp h1⟩
  | m rows =>
    refine mmMul_vec_one_ok hn ha hca hb hcb (I := fun k => CRes F64.Value P D' fun d => accSum (fun k => shiftCo (f k) (w k) d) k)
      zero_res (stable_coef f64Laws hD hF) ?_
    rintro k acc x v _ hacc hx ⟨v', h1, h2, h3, h4⟩
    cases h3
    refine (mul_var (s := .mono x) hD hF hp hx h1 h2).1.mono fun t ht => step k acc t hacc ?_
    rwa [h4] at ht
  | p rows =>
    refine (pmMul_vec_ok (by decide) hn ha hca hb hcb
      (I := fun _ k => CRes F64.Value P D' fun d => accSum (fun k => shiftCo (f k) (w k) d) k)
      (fun _ _ => zero_res) (fun _ _ => stable_coef f64Laws hD hF) ?_).mono ?_
    · rintro i k acc p v _ _ hacc hx ⟨v', h1, h2, h3, h4⟩
      cases h3
      refine (mul_var (s := .poly p) hD hF hp hx h1 h2).1.mono fun t ht => step k acc t hacc ?_
      rwa [h4] at ht
    · rintro e ⟨h1, h2, -⟩
      obtain ⟨s, rfl⟩ := h2 rfl
      exact ⟨s, rfl, earr_s_iff.mp h1⟩

end Row

/-! ## Linear and quadratic forms -/

section Forms
variable {rows : List (List F64)} {row : List F64} {vs : List (Var F64)}

private theorem shift_const (x : F64) (i : ℕ) (d : ℕ →₀ ℕ) :
    shiftCo (fun d => if 0 = d then x else .fin 0) i d = if Finsupp.single i 1 = d then x else .fin 0 := by
  unfold shiftCo
  by_cases h : Finsupp.single i 1 = d
  · subst h
    simp
  · rw [if_neg h]
    split
    · rfl
    · rename_i h0
      refine if_neg fun e => h (le_antisymm ?_ (tsub_eq_zero_iff_le.mp e.symm))
      rw [Finsupp.single_le_iff]
      omega

private theorem accSum_dot (x : ℕ → F64) (w : ℕ → ℕ) (d : ℕ →₀ ℕ) (n : ℕ) :
    accSum (fun k => if Finsupp.single (w k) 1 = d then x k else .fin 0) n = dotAcc x w d n := by
  induction n with
  | zero => rfl
  | succ n ih =>
    show GoNum.add _ _ = if _ then _ else _
    rw [ih]
    dsimp only
    split
    · rfl
    · exact f64Laws.add_zero _ (dotAcc_value n)

private theorem vars_arr (hv : ∀ v ∈ vs, v.OK) : VArr vs.length
    (fun k s => ∃ v : Var F64, v.OK ∧ v ∈ vs ∧ s = .var v ∧ v.id = (vs.map (·.id)).getD k 0) (.v vs) := by
  refine LArr.map_iff.mpr ⟨rfl, fun k v hk => ?_⟩
  have hm := List.mem_of_getElem? hk
  exact ⟨v, hv v hm, hm, rfl, by simp [List.getD, hk]⟩

/-- C91: one row of numbers times a vector of variables is the linear form with those numbers. -/
theorem row_vars_coeffs (hn : vs ≠ []) (hl : row.length = vs.length) (hx : ∀ x ∈ row, x.Value) (hv : ∀ v ∈ vs, v.OK) :
    ∃ t : Scalar F64, (Expr.m (.k [row])).mul (.v (.v vs)) = .ok (.s t) ∧ t.Canon ∧ t.TermsIn (degLE 1) ∧
      (∀ v, t.Mentions v → v ∈ vs) ∧ t.NumsValid ∧ t.Repeats 1 ∧
      (∀ d, (∀ v ∈ vs, d ≠ Finsupp.single v.id 1) → t.coeffAt d = .fin 0) ∧
      ∀ v : ℕ, t.coeffAt (Finsupp.single v 1) = rowSum row (vs.map (·.id)) v := by
  have hn' : 0 < vs.length := List.length_pos_of_ne_nil hn
  have ha : MArr 1 vs.length (fun _ k => CRes F64.Value (· ∈ vs) ∅ fun d => if 0 = d then row.getD k (.fin 0) else .fin 0)
      (.k [row]) := by
    refine Arr.map_iff.mpr (LArr.cons_iff.mpr ⟨⟨hl, fun k y hk => ?_⟩, LArr.nil _⟩)
    have hy := hx y (List.mem_of_getElem? hk)
    refine ⟨trivial, numL_single hy, once_single _, fun d => ?_⟩
    show (if _ then _ else _) = _
    rw [kToMono_degs, show row.getD k (.fin 0) = y by simp [List.getD, hk]]
    rfl
  obtain ⟨e, h1, t, rfl, h2⟩ := row_vars_coef rearrFree_degLE_one degLE_one_flat (prodIn_const (degLE 1)).symm hn' ha
    (vars_arr hv)
  obtain ⟨c1, c2, c3⟩ := good_iff.mp h2.good
  have hc : ∀ d, t.coeffAt d = dotAcc (fun k => row.getD k (.fin 0)) (fun k => (vs.map (·.id)).getD k 0) d vs.length :=
    fun d => (h2.coef d).trans (by simp only [shift_const]; exact accSum_dot _ _ d _)
  refine ⟨t, h1, c1, c2, c3, h2.nums, onceL_iff.mp h2.once, fun d hd => (hc d).trans (dotAcc_zero _ fun k hk => ?_),
    fun v => (hc _).trans ?_⟩
  · have hk' : (vs.map (·.id)).getD k 0 = vs[k].id := by simp [List.getD, hk]
    rw [hk']
    exact hd _ (List.getElem_mem hk)
  · have := dotAcc_rowSum row (vs.map (·.id)) (by rw [hl, List.length_map]) v vs.length
    rw [List.take_of_length_le hl.le, List.take_of_length_le (by simp), hl, min_self] at this
    exact this

private theorem pair_support {a b c : ℕ} (hbc : b ≠ c) (ha : (Finsupp.single b 1 + Finsupp.single c 1 : ℕ →₀ ℕ) a ≠ 0) :
    a = b ∨ a = c := by
  by_contra h
  push Not at h
  exact ha (by simp [Finsupp.single_apply, h.1.symm, h.2.symm])

/-- C91: `x.Transpose().Multiply(Q).Multiply(x)` for different variables. -/
theorem quadratic_coeffs (hn : 2 ≤ vs.length) (hr : rows.length = vs.length) (hl : ∀ row ∈ rows, row.length = vs.length)
    (hx : ∀ row ∈ rows, ∀ x ∈ row, x.Value) (hv : ∀ v ∈ vs, v.OK) (hd : (vs.map (·.id)).Nodup) :
    ∃ e1 e2 t, (Expr.v (.v vs)).transpose = .ok e1 ∧ e1.mul (.m (.k rows)) = .ok e2 ∧
      e2.mul (.v (.v vs)) = .ok (.s t) ∧ t.Canon ∧ t.TermsIn (degLE 2) ∧ (∀ v, t.Mentions v → v ∈ vs) ∧
      t.NumsValid ∧ t.Repeats 1 ∧
      (∀ (i : ℕ) (v : Var F64) (r : List F64) (x : F64), vs[i]? = some v → rows[i]? = some r → r[i]? = some x →
        t.coeffAt (Finsupp.single v.id 2) = x) ∧
      (∀ (i j : ℕ) (u v : Var F64) (r r' : List F64) (x y : F64), i ≠ j → vs[i]? = some u → vs[j]? = some v →
        rows[i]? = some r → r[j]? = some x → rows[j]? = some r' → r'[i]? = some y →
        t.coeffAt (Finsupp.single u.id 1 + Finsupp.single v.id 1) = GoNum.add x y) ∧
      ∀ d, (∀ u ∈ vs, ∀ v ∈ vs, d ≠ Finsupp.single u.id 1 + Finsupp.single v.id 1) → t.coeffAt d = .fin 0 := by
  have hn' : 0 < vs.length := by omega
  let q : ℕ → ℕ → F64 := fun i j => (rows.getD i []).getD j (.fin 0)
  let w : ℕ → ℕ := fun k => (vs.map (·.id)).getD k 0
  have hvs := vars_arr hv
  have ht : (Expr.v (.v vs)).transpose = .ok (.m (.v [vs])) := by
    have := hvs.check hn' (by rintro i x ⟨v, h1, -, rfl, -⟩; exact Var.check_iff.mpr h1)
    simp only [Expr.transpose, Vec.transpose, this, Go.pure_eq, Go.ok_bind]
  have ha : MArr 1 vs.length (fun _ k s => ∃ v : Var F64, v.OK ∧ v ∈ vs ∧ s = .var v ∧ v.id = w k) (.v [vs]) :=
    Arr.map_iff.mpr (LArr.cons_iff.mpr ⟨LArr.map_iff.mp hvs, LArr.nil _⟩)
  have hq : ∀ i j r x, rows[i]? = some r → r[j]? = some x → q i j = x := fun i j r x h1 h2 => by
    simp [q, List.getD, h1, h2]
  have hb : MArr vs.length vs.length (fun i k s => s = .k (q i k) ∧ (q i k).Value) (.k rows) := by
    refine Arr.map_iff.mpr ⟨hr, fun i row hi => ⟨hl row (List.mem_of_getElem? hi), fun k y hk => ?_⟩⟩
    dsimp only
    rw [hq i k row y hi hk]
    exact ⟨rfl, hx row (List.mem_of_getElem? hi) y (List.mem_of_getElem? hk)⟩
  have hqv : ∀ i j, i < vs.length → j < vs.length → (q i j).Value := by
    intro i j hi hj
    have h1 : i < rows.length := by omega
    have h2 : j < (rows[i]).length := by rw [hl _ (List.getElem_mem h1)]; exact hj
    rw [hq i j _ _ (List.getElem?_eq_getElem h1) (List.getElem?_eq_getElem h2)]
    exact hx _ (List.getElem_mem h1) _ (List.getElem_mem h2)
  obtain ⟨e2, h3, h4, h5⟩ := Mat.mul_mat_ok (by decide) hn' hn' ha
    (by rintro i j x ⟨v, h1, -, rfl, -⟩; exact Var.check_iff.mpr h1) hb (by rintro i j x ⟨rfl, -⟩; rfl)
    (I := fun _ j k => CRes F64.Value (· ∈ vs) (degLE 1) fun d => dotAcc (fun i => q i j) w d k)
    (fun _ _ _ _ => ⟨trivial, numL_single f64Laws.zero, once_single _, fun d => by
      show (if _ then GoNum.zero else GoNum.zero) = _
      split <;> rfl⟩)
    (fun _ _ _ _ => stable_coef f64Laws rearrFree_degLE_one degLE_one_flat)
    (fun i j k acc x y _ _ _ hacc h1 h2 => by
      obtain ⟨v, o1, o2, rfl, o3⟩ := h1
      obtain ⟨rfl, hy⟩ := h2
      have hk : CRes F64.Value (· ∈ vs) ∅ (fun d => if 0 = d then q k j else .fin 0) (.k (q k j)) :=
        ⟨trivial, numL_single hy, once_single _, fun d => rfl⟩
      refine (mul_var rearrFree_degLE_one degLE_one_flat (prodIn_const (degLE 1)).symm hk o1 o2).2.mono fun t ht => ?_
      refine dotAcc_step hacc (ht.congr fun d => ?_)
      rw [shift_const, o3]
      rfl)
  obtain ⟨a, rfl⟩ := h5.2.2 (by omega)
  have h4' := earr_m_iff.mp h4
  obtain ⟨e, h6, t, rfl, h7⟩ := row_vars_coef rearrFree_degLE_two degLE_two_flat (prodIn_degLE 1 1) hn'
    (f := fun j d => dotAcc (fun i => q i j) w d vs.length) h4' hvs
  obtain ⟨c1, c2, c3⟩ := good_iff.mp h7.good
  have hwi : ∀ i (h : i < vs.length), w i = vs[i].id := fun i h => by simp [w, List.getD, h]
  have hinj : ∀ i j, i < vs.length → j < vs.length → w i = w j → i = j := by
    intro i j hi hj e
    rw [hwi i hi, hwi j hj] at e
    refine (List.Nodup.getElem_inj_iff hd (i := i) (j := j) (hi := by simpa using hi) (hj := by simpa using hj)).mp ?_
    simpa using e
  have hdot : ∀ i j, i < vs.length → j < vs.length →
      dotAcc (fun i => q i j) w (Finsupp.single (w i) 1) vs.length = q i j := by
    intro i j hi hj
    rw [← accSum_dot, accSum_one hi]
    · exact if_pos rfl
    · rw [if_pos rfl]
      exact hqv i j hi hj
    · intro k hk hne
      exact if_neg fun e => hne (hinj k i hk hi (Finsupp.single_left_injective one_ne_zero e))
  have hwv : ∀ i v, vs[i]? = some v → i < vs.length ∧ v.id = w i := fun i v h => by
    obtain ⟨h1, h2⟩ := List.getElem?_eq_some_iff.mp h
    exact ⟨h1, by rw [hwi i h1, h2]⟩
  have htwo : ∀ i j, i < j → j < vs.length →
      t.coeffAt (Finsupp.single (w i) 1 + Finsupp.single (w j) 1) = GoNum.add (q j i) (q i j) := by
    intro i j hij hj
    have hi : i < vs.length := by omega
    have hne : w i ≠ w j := fun e => by have := hinj i j hi hj e; omega
    have hsi : shiftCo (fun d => dotAcc (fun k => q k i) w d vs.length) (w i)
        (Finsupp.single (w i) 1 + Finsupp.single (w j) 1) = q j i := by
      unfold shiftCo
      rw [if_neg (by simp), add_tsub_cancel_left]
      exact hdot j i hj hi
    have hsj : shiftCo (fun d => dotAcc (fun k => q k j) w d vs.length) (w j)
        (Finsupp.single (w i) 1 + Finsupp.single (w j) 1) = q i j := by
      unfold shiftCo
      rw [if_neg (by simp), add_tsub_cancel_right]
      exact hdot i j hi hj
    refine (h7.coef _).trans ((accSum_two hij hj ?_ ?_).trans ?_)
    · rw [hsi]
      exact hqv j i hj hi
    · intro k hk h1 h2
      refine if_pos ?_
      by_contra h0
      rcases pair_support hne h0 with e | e
      · exact h1 (hinj k i hk hi e)
      · exact h2 (hinj k j hk hj e)
    · rw [hsi, hsj]
  refine ⟨_, _, t, ht, h3, h6, c1, c2, c3, h7.nums, onceL_iff.mp h7.once, ?_, ?_, ?_⟩
  · intro i v r x e1 e2 e3
    obtain ⟨hi, e4⟩ := hwv i v e1
    have hsi : shiftCo (fun d => dotAcc (fun k => q k i) w d vs.length) (w i) (Finsupp.single (w i) 2) = q i i := by
      unfold shiftCo
      rw [if_neg (by simp), show (Finsupp.single (w i) 2 : ℕ →₀ ℕ) = Finsupp.single (w i) 1 + Finsupp.single (w i) 1 by
        rw [← Finsupp.single_add], add_tsub_cancel_right]
      exact hdot i i hi hi
    rw [e4, ← hq i i r x e2 e3]
    refine (h7.coef _).trans ((accSum_one hi ?_ ?_).trans hsi)
    · rw [hsi]
      exact hqv i i hi hi
    · intro k hk hne
      exact if_pos (Finsupp.single_eq_of_ne fun e => hne (hinj k i hk hi e))
  · intro i j u v r r' x y hij e1 e2 e3 e4 e5 e6
    obtain ⟨hi, e7⟩ := hwv i u e1
    obtain ⟨hj, e8⟩ := hwv j v e2
    rw [e7, e8, ← hq i j r x e3 e4, ← hq j i r' y e5 e6]
    rcases lt_or_gt_of_ne hij with h | h
    · rw [htwo i j h hj]
      exact f64Laws.add_comm _ _
    · rw [add_comm, htwo j i h hi]
  · intro d h0
    refine (h7.coef _).trans (accSum_none fun k hk => ?_)
    unfold shiftCo
    split
    · rfl
    · rename_i h1
      refine dotAcc_zero _ fun i hi e => ?_
      refine h0 _ (List.getElem_mem hi) _ (List.getElem_mem hk) ?_
      rw [← hwi i hi, ← hwi k hk, ← e]
      refine (tsub_add_cancel_of_le ?_).symm
      rw [Finsupp.single_le_iff]
      omega

end Forms

/-! ## Examples -/

private theorem smallValue {k : ℤ} (h : |k| ≤ 2 ^ 53) : F64.Value (.fin k) := F64.able_small h

/-- `x² + 0.1 x y + 3 y x + ∞ y²`: the coefficient of `x y` is the `float64` number next to `3.1`. -/
example : ∃ e1 e2 t, (Expr.v (.v [f64Var 1, f64Var 2])).transpose = .ok e1 ∧
    e1.mul (.m (.k [[.fin 1, .fin f64Tenth], [.fin 3, .inf false]])) = .ok e2 ∧
    e2.mul (.v (.v [f64Var 1, f64Var 2])) = .ok (.s t) ∧
    t.coeffAt (Finsupp.single 1 2) = .fin 1 ∧ t.coeffAt (Finsupp.single 2 2) = .inf false ∧
    t.coeffAt (Finsupp.single 1 1 + Finsupp.single 2 1) = GoNum.add (.fin f64Tenth) (.fin 3) ∧ t.coeffAt 0 = .fin 0 := by
  have n1 := smallValue (k := 1) (by norm_num)
  have n3 := smallValue (k := 3) (by norm_num)
  push_cast at n1 n3
  obtain ⟨e1, e2, t, h1, h2, h3, -, -, -, -, -, h4, h5, h6⟩ := quadratic_coeffs (vs := [f64Var 1, f64Var 2])
    (rows := [[.fin 1, .fin f64Tenth], [.fin 3, .inf false]]) (by simp) rfl (by simp) (by
      simp only [List.mem_cons, List.not_mem_nil, or_false, forall_eq_or_imp, forall_eq]
      exact ⟨⟨n1, F64.IsFloat.value ⟨f64Tenth, rfl, by decide +kernel⟩⟩, n3, trivial⟩) (by
      simp only [List.mem_cons, List.not_mem_nil, or_false, forall_eq_or_imp, forall_eq]
      exact ⟨rfl, rfl⟩) (by simp [f64Var])
  refine ⟨e1, e2, t, h1, h2, h3, h4 0 _ _ _ rfl rfl rfl, h4 1 _ _ _ rfl rfl rfl,
    h5 0 1 _ _ _ _ _ _ (by decide) rfl rfl rfl rfl rfl rfl, h6 0 fun u _ v _ e => ?_⟩
  have := DFunLike.congr_fun e u.id
  simp at this
  omega

/-- `(0.1, ∞, 3) · (x, y, x)`: the numbers of `x` are added up. -/
example : ∃ t, (Expr.m (.k [[.fin f64Tenth, .inf false, .fin 3]])).mul (.v (.v [f64Var 1, f64Var 2, f64Var 1])) = .ok (.s t) ∧
    t.coeffAt (Finsupp.single 1 1) = GoNum.add (.fin f64Tenth) (.fin 3) ∧ t.coeffAt (Finsupp.single 2 1) = .inf false := by
  have n3 := smallValue (k := 3) (by norm_num)
  push_cast at n3
  have h01 : F64.Value (.fin f64Tenth) := F64.IsFloat.value ⟨f64Tenth, rfl, by decide +kernel⟩
  obtain ⟨t, h1, -, -, -, -, -, -, h2⟩ := row_vars_coeffs (vs := [f64Var 1, f64Var 2, f64Var 1])
    (row := [.fin f64Tenth, .inf false, .fin 3]) (by simp) rfl (by
      simp only [List.mem_cons, List.not_mem_nil, or_false, forall_eq_or_imp, forall_eq]
      exact ⟨h01, trivial, n3⟩) (by
      simp only [List.mem_cons, List.not_mem_nil, or_false, forall_eq_or_imp, forall_eq]
      exact ⟨rfl, rfl, rfl⟩)
  refine ⟨t, h1, (h2 1).trans ?_, (h2 2).trans ?_⟩
  · show GoNum.add (GoNum.add (F64.fin 0) (F64.fin f64Tenth)) (F64.fin 3) = _
    exact congrArg (GoNum.add · _) (f64Laws.zero_add _ h01)
  · exact f64Laws.zero_add _ trivial

end Verif
