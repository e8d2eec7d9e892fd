import Verif.Props.CoefsMatMul
import Verif.Props.Evaluate
import Verif.Lemmas.RoundPow

/-!
# C96: powers, coefficient by coefficient

Which operations compute the coefficients of a power.  For a number, a variable or a monomial the result is given
as it is written, in every arithmetic; for any expression each step is one product as in C89; for the square of a
linear expression every coefficient is given by the coefficients of the expression.
-/

set_option linter.unusedSectionVars false

namespace Verif

open MvPolynomial

/-! ## Powers of one term -/

section Terms
variable {R : Type} [GoNum R]

/-- `c*1*c*c*...*c`: the product of `n + 1` factors `c`. -/
def coefPow (c : R) : ℕ → R
  | 0 => GoNum.mul c GoNum.one
  | n + 1 => GoNum.mul (coefPow c n) c

/-- C96: the power of a number. -/
theorem power_number_naive (x : R) (n : ℕ) : (Scalar.k x).power n = .ok (.k (naivePow x n)) := by
  induction n with
  | zero => exact Scalar.power_zero rfl
  | succ n ih =>
    rw [Scalar.power_succ rfl, ih]
    rfl

private theorem uniqueFold_known (l acc : List (Var R)) (h : ∀ v ∈ l, v.id ∈ acc.map (·.id)) :
    l.foldl uniqueStep acc = acc := by
  induction l with
  | nil => rfl
  | cons v l ih =>
    rw [List.foldl_cons]
    rcases uniqueStep_cases acc v with ⟨h1, -⟩ | ⟨-, h2⟩
    · exact absurd (h v (by simp)) h1
    · rw [h2]
      exact ih fun w hw => h w (by simp [hw])

private theorem exps_of_degs {m : Mono R} (hm : m.Canon) (i : ℕ) (hi : i < m.vars.length) :
    m.exps[i]? = some ((m.degs (m.vars[i]).id : ℕ) : ℤ) := by
  have hl : i < m.exps.length := by rw [hm.len]; exact hi
  have hz : (m.vars[i], m.exps[i]) ∈ m.vars.zip m.exps := by
    rw [List.mem_iff_getElem]
    exact ⟨i, by simp [hi, hl], by simp⟩
  have h1 : m.degs (m.vars[i]).id = (m.exps[i]).toNat :=
    pdegs_apply_of_mem (by rw [zip_keys hm.len]; exact hm.nodup) hz
  rw [List.getElem?_eq_getElem hl, h1, Int.toNat_of_nonneg (hm.pos _ (List.getElem_mem hl)).le]

private theorem mulMono_same {q m : Mono R} (hq : q.Canon) (hm : m.Canon) (hv : q.vars = m.vars) {k : ℤ}
    (he : q.exps = m.exps.map (k * ·)) :
    q.mulMono m = .ok ⟨GoNum.mul q.coeff m.coeff, m.exps.map ((k + 1) * ·), m.vars⟩ := by
  obtain ⟨p, h1, hp, hd, hc, -, hu⟩ := Mono.mulMono_ok hq hm
  have hpv : p.vars = m.vars := by
    rw [hu, hv]
    unfold uniqueVars
    rw [List.foldl_append, show m.vars.foldl uniqueStep [] = m.vars from uniqueVars_of_nodup hm.nodup]
    exact uniqueFold_known _ _ fun v hv => List.mem_map.mpr ⟨v, hv, rfl⟩
  have hpe : p.exps = m.exps.map ((k + 1) * ·) := by
    refine List.ext_getElem? fun i => ?_
    by_cases hi : i < m.vars.length
    · have h2 := exps_of_degs hp i (by rw [hpv]; exact hi)
      have h3 := exps_of_degs hq i (by rw [hv]; exact hi)
      have h4 := exps_of_degs hm i hi
      simp only [hpv] at h2
      simp only [hv] at h3
      rw [h2, hd, Finsupp.add_apply, List.getElem?_map, h4]
      rw [he, List.getElem?_map, h4] at h3
      simp only [Option.map_some, Option.some.injEq] at h3 ⊢
      push_cast
      rw [← h3]
      ring
    · rw [List.getElem?_eq_none (by rw [hp.len, hpv]; omega), List.getElem?_eq_none (by simp [hm.len]; omega)]
  rw [h1]
  obtain ⟨c, e, v⟩ := p
  simp only at hc hpv hpe
  rw [hc, hpv, hpe]

private theorem canon_scaled {m : Mono R} (hm : m.Canon) {k : ℤ} (hk : 0 < k) (c : R) :
    (⟨c, m.exps.map (k * ·), m.vars⟩ : Mono R).Canon :=
  ⟨by simp [hm.len], fun e he => by
    obtain ⟨x, hx, rfl⟩ := List.mem_map.mp he
    exact mul_pos hk (hm.pos x hx), hm.nodup, hm.ok⟩

/-- C96: the power of a monomial: the variables in the same order, the exponents times `n + 1`. -/
theorem power_mono {m : Mono R} (hm : m.Canon) (n : ℕ) : (Scalar.mono m).power (n + 1 : ℕ) =
    .ok (.mono ⟨coefPow m.coeff n, m.exps.map (((n + 1 : ℕ) : ℤ) * ·), m.vars⟩) := by
  have hc : (Scalar.mono m).check = .ok () := hm.check
  induction n with
  | zero =>
    rw [Scalar.power_succ hc, show (((0 : ℕ) : ℤ)) = 0 from rfl, Scalar.power_zero hc, Go.ok_bind]
    show kMul GoNum.one (.mono m) = _
    unfold kMul
    rw [hc, Go.ok_bind]
    show m.mul (.k GoNum.one) = _
    unfold Mono.mul
    rw [hm.check, Go.ok_bind]
    show Except.ok (Scalar.mono (m.mulK GoNum.one)) = _
    unfold Mono.mulK coefPow
    simp
  | succ n ih =>
    rw [Scalar.power_succ hc, ih, Go.ok_bind]
    have hq := canon_scaled hm (k := ((n + 1 : ℕ) : ℤ)) (by omega) (coefPow m.coeff n)
    show Mono.mul _ (.mono m) = _
    unfold Mono.mul
    rw [hq.check, Go.ok_bind, hc, Go.ok_bind]
    show (Mono.mulMono _ m >>= fun r => pure (Scalar.mono r)) = _
    rw [mulMono_same hq hm rfl rfl, Go.ok_bind]
    simp only [coefPow, Go.pure_eq, Except.ok.injEq, Scalar.mono.injEq]
    push_cast
    rfl

end Terms

/-- C96: for `float64` the coefficient of the power of a monomial is the power of its coefficient. -/
theorem coefPow_naive (c : F64) (n : ℕ) : coefPow c n = naivePow c (n + 1) := by
  induction n with
  | zero => exact F64.mul_commutes _ _
  | succ n ih =>
    show GoNum.mul (coefPow c n) c = GoNum.mul (naivePow c (n + 1)) c
    rw [ih]

/-- C96: the power of a variable: the coefficient is one. -/
theorem power_var {v : Var F64} (hv : v.OK) (n : ℕ) : (Scalar.var v).power 0 = .ok (.k (.fin 1)) ∧
    (Scalar.var v).power 1 = .ok (.var v) ∧
    (Scalar.var v).power (n + 2 : ℕ) = .ok (.mono ⟨.fin 1, [((n + 2 : ℕ) : ℤ)], [v]⟩) := by
  have hc : (Scalar.var v).check = .ok () := hv.check
  have h0 : (Scalar.var v).power 0 = .ok (.k (.fin 1)) := Scalar.power_zero hc
  have canon : ∀ k : ℤ, 0 < k → (⟨.fin 1, [k], [v]⟩ : Mono F64).Canon := fun k hk =>
    ⟨rfl, by simpa using hk, by simp, by simpa using hv⟩
  have simp1 : (⟨.fin 1, [1], [v]⟩ : Mono F64).asSimplified = .ok (.var v) := by
    unfold Mono.asSimplified
    rw [(canon 1 (by norm_num)).check, Go.ok_bind]
    rfl
  have simp2 : (⟨.fin 1, [2], [v]⟩ : Mono F64).asSimplified = .ok (.mono ⟨.fin 1, [2], [v]⟩) := by
    unfold Mono.asSimplified
    rw [(canon 2 (by norm_num)).check, Go.ok_bind]
    rfl
  have h1 : (Scalar.var v).power 1 = .ok (.var v) := by
    have := Scalar.power_succ hc 0
    rw [show (((0 + 1 : ℕ) : ℕ) : ℤ) = 1 from rfl, show (((0 : ℕ) : ℤ)) = 0 from rfl, h0, Go.ok_bind] at this
    rw [this]
    show kMul (F64.fin 1) (.var v) = _
    unfold kMul
    rw [hc, Go.ok_bind]
    show v.mul (.k (.fin 1)) = _
    unfold Var.mul
    rw [hv.check, Go.ok_bind]
    exact simp1
  refine ⟨h0, h1, ?_⟩
  induction n with
  | zero =>
    have := Scalar.power_succ hc 1
    rw [show (((1 : ℕ) : ℤ)) = 1 from rfl, h1, Go.ok_bind] at this
    refine this.trans ?_
    show v.mul (.var v) = _
    unfold Var.mul
    rw [hv.check, Go.ok_bind, hc, Go.ok_bind]
    dsimp only
    rw [if_pos rfl]
    exact simp2
  | succ n ih =>
    have := Scalar.power_succ hc (n + 2)
    rw [ih, Go.ok_bind] at this
    refine this.trans ?_
    show Mono.mul _ (.var v) = _
    unfold Mono.mul
    rw [(canon _ (by omega)).check, Go.ok_bind, hc, Go.ok_bind]
    show Except.ok (Scalar.mono (Mono.mulVar ⟨.fin 1, [((n + 2 : ℕ) : ℤ)], [v]⟩ v)) = _
    have hf : findVar v [v] = some 0 := by simp [findVar]
    unfold Mono.mulVar
    simp only [hf]
    simp
    ring

/-! ## Powers of expressions -/

section Powers
variable {D : Set (ℕ →₀ ℕ)} {b : Scalar F64}

/-- C96: `Power(n)` multiplies `n` times; which operations compute each coefficient of each product is said by
`timesAt`. -/
theorem power_coeffs {n : ℕ} (hD : RearrFree {d | NSum D n d}) (hF : {d | NSum D n d} ⊆ flat) (cb : b.Canon)
    (tb : b.TermsIn D) (vb : b.NumsValid) (ob : b.Repeats 1) :
    ∃ r : ℕ → Scalar F64, r 0 = .k (.fin 1) ∧ (∀ k ≤ n, b.power k = .ok (r k) ∧ (r k).Canon ∧ (r k).NumsValid ∧
      (r k).Repeats 1 ∧ (r k).TermsIn {d | NSum D k d}) ∧
      ∀ k < n, ∀ d, (r (k + 1)).coeffAt d = (r k).timesAt b d := by
  have hc : b.check = .ok () := (good_of_univ cb).check
  have v1 : (Scalar.k (F64.fin 1)).NumsValid := numL_single (m := kToMono (F64.fin 1)) (N := F64.Value) f64Laws.one
  have all : ∀ k ≤ n, ∃ r, b.power k = .ok r ∧ r.Canon ∧ r.NumsValid ∧ r.Repeats 1 ∧ r.TermsIn {d | NSum D k d} := by
    intro k
    induction k with
    | zero => exact fun _ => ⟨_, Scalar.power_zero hc, trivial, v1, onceL_iff.mp (once_single _), trivial⟩
    | succ k ih =>
      intro hk
      obtain ⟨r, h1, h2, h3, h4, h5⟩ := ih (by omega)
      obtain ⟨s, g1, g2, g3, g4, g5, -⟩ := mul_coeffs (hD.mono fun d hd => NSum.le hd hk)
        (fun d hd => hF (NSum.le hd hk)) (prodIn_nsum D k) h2 cb h5 tb h3 vb h4 ob
      exact ⟨s, by rw [Scalar.power_succ hc, h1]; exact g1, g2, g4, g5, g3⟩
  haveI : Nonempty (Scalar F64) := ⟨.k (.fin 0)⟩
  choose! r hr using all
  refine ⟨r, ?_, hr, fun k hk d => ?_⟩
  · have h1 := (hr 0 (Nat.zero_le _)).1
    have h2 : b.power ((0 : ℕ) : ℤ) = .ok (.k (.fin 1)) := Scalar.power_zero hc
    rw [h1] at h2
    exact Except.ok.inj h2
  · obtain ⟨h1, h2, h3, h4, h5⟩ := hr k hk.le
    obtain ⟨s, g1, -, -, -, -, g2⟩ := mul_coeffs (hD.mono fun d hd => NSum.le hd hk)
      (fun d hd => hF (NSum.le hd hk)) (prodIn_nsum D k) h2 cb h5 tb h3 vb h4 ob
    have h6 := (hr (k + 1) hk).1
    rw [Scalar.power_succ hc, h1, Go.ok_bind, g1] at h6
    rw [← Except.ok.inj h6]
    exact g2 d

end Powers

/-! ## Squares of linear expressions -/

section Sums
variable {g : (ℕ →₀ ℕ) → F64 → F64}

private theorem add_zero' {x : F64} (h : x.Value) : GoNum.add x (.fin 0) = x := f64Laws.add_zero x h

private theorem zero_add' {x : F64} (h : x.Value) : GoNum.add (.fin 0) x = x := f64Laws.zero_add x h

private theorem fold_none {l : List (Mono F64)} {acc : F64} (ha : acc.Value)
    (h : ∀ m ∈ l, g m.degs m.coeff = .fin 0) : l.foldl (fun acc m => GoNum.add acc (g m.degs m.coeff)) acc = acc := by
  induction l with
  | nil => rfl
  | cons m l ih =>
    rw [List.foldl_cons, h m (by simp), add_zero' ha]
    exact ih fun m hm => h m (by simp [hm])

private theorem fold_one (h0 : ∀ e, g e (.fin 0) = .fin 0) {l : List (Mono F64)} (ho : OnceL l) {acc : F64}
    (ha : acc.Value) {e : ℕ →₀ ℕ} (h : ∀ m ∈ l, m.degs ≠ e → g m.degs m.coeff = .fin 0) :
    l.foldl (fun acc m => GoNum.add acc (g m.degs m.coeff)) acc = GoNum.add acc (g e (fco e l)) := by
  induction l with
  | nil =>
    show acc = GoNum.add acc (g e (.fin 0))
    rw [h0, add_zero' ha]
  | cons m l ih =>
    have ho' : m.degs ∉ l.map (·.degs) ∧ OnceL l := by
      unfold OnceL at ho
      rw [List.map_cons, List.nodup_cons] at ho
      exact ho
    rw [List.foldl_cons, fco_cons]
    by_cases he : m.degs = e
    · rw [if_pos he, he]
      exact fold_none (F64.value_add _ _) fun x hx => h x (by simp [hx]) fun e' =>
        ho'.1 (List.mem_map.mpr ⟨x, hx, e'.trans he.symm⟩)
    · rw [if_neg he, h m (by simp) he, add_zero' ha]
      exact ih ho'.2 fun m hm => h m (by simp [hm])

private theorem fold_two (h0 : ∀ e, g e (.fin 0) = .fin 0) (hv : ∀ e c, (g e c).Value) {l : List (Mono F64)}
    (ho : OnceL l) {e e' : ℕ →₀ ℕ} (hne : e ≠ e')
    (h : ∀ m ∈ l, m.degs ≠ e → m.degs ≠ e' → g m.degs m.coeff = .fin 0) :
    l.foldl (fun acc m => GoNum.add acc (g m.degs m.coeff)) (.fin 0) =
      GoNum.add (g e (fco e l)) (g e' (fco e' l)) := by
  induction l with
  | nil =>
    show F64.fin 0 = GoNum.add (g e (.fin 0)) (g e' (.fin 0))
    rw [h0, h0]
    exact (add_zero' f64Laws.zero).symm
  | cons m l ih =>
    have ho' : m.degs ∉ l.map (·.degs) ∧ OnceL l := by
      unfold OnceL at ho
      rw [List.map_cons, List.nodup_cons] at ho
      exact ho
    have other : ∀ x ∈ l, x.degs ≠ m.degs := fun x hx e => ho'.1 (List.mem_map.mpr ⟨x, hx, e⟩)
    rw [List.foldl_cons, fco_cons, fco_cons]
    by_cases h1 : m.degs = e
    · rw [if_pos h1, if_neg (h1 ▸ hne), h1, zero_add' (hv _ _)]
      exact fold_one h0 ho'.2 (hv _ _) fun x hx hx' => h x (by simp [hx]) (h1 ▸ other x hx) hx'
    by_cases h2 : m.degs = e'
    · rw [if_neg h1, if_pos h2, h2, zero_add' (hv _ _), f64Laws.add_comm]
      exact fold_one h0 ho'.2 (hv _ _) (e := e) fun x hx hx' => h x (by simp [hx]) hx' (h2 ▸ other x hx)
    · rw [if_neg h1, if_neg h2, h m (by simp) h1 h2, show GoNum.add (F64.fin 0) (F64.fin 0) = .fin 0 from add_zero' f64Laws.zero]
      exact ih ho'.2 fun x hx => h x (by simp [hx])

end Sums

section Squares
variable {b : Scalar F64}

private theorem linear_exps {e : ℕ →₀ ℕ} (h : e ∈ degLE 1) : e = 0 ∨ ∃ k, e = Finsupp.single k 1 := by
  by_cases h0 : e = 0
  · exact Or.inl h0
  right
  obtain ⟨k, hk⟩ := Finsupp.ne_iff.mp h0
  rw [Finsupp.zero_apply] at hk
  have h1 : Finsupp.single k 1 ≤ e := Finsupp.single_le_iff.mpr (Nat.one_le_iff_ne_zero.mpr hk)
  obtain ⟨f, rfl⟩ := exists_add_of_le h1
  have h2 : ((Finsupp.single k 1 + f).sum fun _ e => e) ≤ 1 := h
  rw [degree_add, Finsupp.sum_single_index rfl] at h2
  have h3 : f = 0 := by
    by_contra h4
    obtain ⟨j, hj⟩ := Finsupp.ne_iff.mp h4
    rw [Finsupp.zero_apply] at hj
    have h5 : f j ≤ f.sum fun _ e => e :=
      Finset.single_le_sum (f := fun j => f j) (fun _ _ => Nat.zero_le _) (Finsupp.mem_support_iff.mpr hj)
    omega
  exact ⟨k, by rw [h3, add_zero]⟩

private theorem linear_terms (h : b.TermsIn (degLE 1)) : ∀ m ∈ b.terms, m.degs ∈ degLE 1 := by
  have z : ∀ m : Mono F64, m.vars = [] ∨ m.degs ∈ degLE 1 → m.degs ∈ degLE 1 := by
    rintro m (hm | hm)
    · have : m.degs = 0 := by unfold Mono.degs; rw [hm]; rfl
      rw [this]
      exact Nat.zero_le _
    · exact hm
  cases b with
  | k c => exact fun m hm => z m (Or.inl (by rw [List.mem_singleton.mp hm]; rfl))
  | var v =>
    intro m hm
    rw [List.mem_singleton.mp hm]
    exact (Var.degs_one v (GoNum.one : F64) 1).symm ▸ h
  | mono m =>
    intro x hx
    rw [List.mem_singleton.mp hx]
    exact z m h
  | poly p => exact fun m hm => z m (h m hm)

/-- C96: the square of a linear expression with finite coefficients, by `Power` or by `Multiply`: every coefficient
takes one multiplication, and those of the linear and mixed terms one addition of two equal numbers. -/
theorem square_coeffs (cb : b.Canon) (tb : b.TermsIn (degLE 1)) (fb : b.Floats) (ob : b.Repeats 1) :
    ∃ r s, b.power 2 = .ok r ∧ b.mul b = .ok s ∧ (∀ d, s.coeffAt d = r.coeffAt d) ∧
      r.coeffAt 0 = GoNum.mul (b.coeffAt 0) (b.coeffAt 0) ∧ ∀ i,
        r.coeffAt (Finsupp.single i 2) =
          GoNum.mul (b.coeffAt (Finsupp.single i 1)) (b.coeffAt (Finsupp.single i 1)) ∧
        r.coeffAt (Finsupp.single i 1) =
          GoNum.add (GoNum.mul (b.coeffAt 0) (b.coeffAt (Finsupp.single i 1)))
            (GoNum.mul (b.coeffAt 0) (b.coeffAt (Finsupp.single i 1))) ∧
        ∀ j, j ≠ i → r.coeffAt (Finsupp.single i 1 + Finsupp.single j 1) =
          GoNum.add (GoNum.mul (b.coeffAt (Finsupp.single i 1)) (b.coeffAt (Finsupp.single j 1)))
            (GoNum.mul (b.coeffAt (Finsupp.single i 1)) (b.coeffAt (Finsupp.single j 1))) := by
  have hsub : {d | NSum (degLE 1) 2 d} ⊆ degLE 2 := nsum_degLE 1 2
  obtain ⟨r, r0, r1, r2⟩ := power_coeffs (n := 2) (rearrFree_degLE_two.mono hsub) (hsub.trans degLE_two_flat) cb tb
    fb.valid ob
  obtain ⟨s, s1, -, -, -, -, s2⟩ := mul_coeffs rearrFree_degLE_two degLE_two_flat (prodIn_degLE 1 1) cb cb tb tb
    fb.valid fb.valid ob ob
  set c : (ℕ →₀ ℕ) → F64 := fun d => b.coeffAt d with hcdef
  have hfin : ∀ d, ∃ q, c d = .fin q := fun d => ⟨_, coeffAt_exact fb ob d⟩
  have hmf : ∀ m ∈ b.terms, ∃ q, m.coeff = .fin q := fun m hm => by
    obtain ⟨q, hq, -⟩ := fb m hm
    exact ⟨q, hq⟩
  have mz : ∀ d, GoNum.mul (c d) (.fin 0) = .fin 0 := fun d => by
    obtain ⟨q, hq⟩ := hfin d
    rw [hq, F64.mul_commutes, F64.zero_mul_fin]
  have hone : ∀ d, (r 1).coeffAt d = c d := fun d => by
    rw [r2 0 (by omega), r0]
    rw [← mul_comm_term fb.valid ob (b := .k (.fin 1)) (numL_single (m := kToMono (F64.fin 1)) (N := F64.Value)
      f64Laws.one) rfl]
    refine (conv_const fb.valid f64Laws.one d).trans (F64.mul_one_value (coeffAt_valid fb d))
  let g (d e : ℕ →₀ ℕ) (x : F64) : F64 := open Classical in if e ≤ d then GoNum.mul (c (d - e)) x else .fin 0
  have fold : ∀ a : Scalar F64, (∀ d, a.coeffAt d = c d) → ∀ d,
      a.timesAt b d = b.terms.foldl (fun acc m => GoNum.add acc (g d m.degs m.coeff)) (.fin 0) := by
    intro a ha d
    unfold Scalar.timesAt
    refine List.foldl_ext _ _ _ fun acc m hm => ?_
    obtain ⟨q, hq⟩ := hmf m hm
    rw [hq, timesTerm_fin, ha]
  have both : ∀ d, (r 2).coeffAt d = b.terms.foldl (fun acc m => GoNum.add acc (g d m.degs m.coeff)) (.fin 0) :=
    fun d => (r2 1 (by omega) d).trans (fold _ hone d)
  have g0 : ∀ d e, g d e (.fin 0) = .fin 0 := fun d e => by
    show ite _ _ _ = _
    split
    · exact mz _
    · rfl
  have gv : ∀ d e x, (g d e x).Value := fun d e x => by
    show (ite _ _ _ : F64).Value
    split
    · exact F64.value_mul _ _
    · exact f64Laws.zero
  have gpos : ∀ e f x, g (f + e) e x = GoNum.mul (c f) x := fun e f x => by
    show ite _ _ _ = _
    rw [if_pos le_add_self, add_tsub_cancel_right]
  have high : ∀ d, d ∉ degLE 1 → c d = .fin 0 := fun d hd =>
    fco_none fun m hm e => hd (e ▸ linear_terms tb m hm)
  have gneg : ∀ d e x, ¬e ≤ d → g d e x = .fin 0 := fun d e x h => if_neg h
  have once := onceL_iff.mpr ob
  have hdeg := linear_terms tb
  have pure2 : ∀ i : ℕ, Finsupp.single i 2 = Finsupp.single i 1 + Finsupp.single i 1 := fun i => by
    rw [← Finsupp.single_add]
  have quad : ∀ i j, Finsupp.single i 1 + Finsupp.single j 1 ∉ degLE 1 := fun i j h => by
    have h2 : ((Finsupp.single i 1 + Finsupp.single j 1).sum fun _ e => e) ≤ 1 := h
    rw [degree_add, Finsupp.sum_single_index rfl, Finsupp.sum_single_index rfl] at h2
    omega
  -- the terms that do not contribute to a quadratic coefficient
  have other2 : ∀ i j, ∀ m ∈ b.terms, m.degs ≠ Finsupp.single i 1 → m.degs ≠ Finsupp.single j 1 →
      g (Finsupp.single i 1 + Finsupp.single j 1) m.degs m.coeff = .fin 0 := by
    intro i j m hm hi hj
    rcases linear_exps (hdeg m hm) with e | ⟨k, e⟩
    · obtain ⟨q, hq⟩ := hmf m hm
      have := gpos 0 (Finsupp.single i 1 + Finsupp.single j 1) m.coeff
      rw [add_zero] at this
      rw [e, this, high _ (quad i j), hq, F64.zero_mul_fin]
    · refine gneg _ _ _ fun hle => ?_
      rw [e] at hle
      have h1 := hle k
      rw [Finsupp.add_apply, Finsupp.single_eq_same, Finsupp.single_apply, Finsupp.single_apply] at h1
      have hik : i ≠ k := fun h => hi (by rw [e, h])
      have hjk : j ≠ k := fun h => hj (by rw [e, h])
      rw [if_neg hik, if_neg hjk] at h1
      omega
  refine ⟨r 2, s, (r1 2 le_rfl).1, s1, fun d => ?_, ?_, fun i => ⟨?_, ?_, fun j hj => ?_⟩⟩
  · rw [s2, both]
    exact fold b (fun _ => rfl) d
  · rw [both, fold_one (g0 0) once (acc := .fin 0) f64Laws.zero (e := 0) fun m hm h => gneg _ _ _ fun h' =>
      h (le_antisymm h' (zero_le (a := m.degs)))]
    refine (zero_add' (gv _ _ _)).trans ?_
    have := gpos 0 0 (c 0)
    rw [add_zero] at this
    exact this
  · rw [pure2, both, fold_one (g0 _) once (acc := .fin 0) f64Laws.zero (e := Finsupp.single i 1) fun m hm h => other2 i i m hm h h]
    exact (zero_add' (gv _ _ _)).trans (gpos _ _ _)
  · rw [both, fold_two (g0 _) (gv _) once (e := 0) (e' := Finsupp.single i 1)
      (fun h => one_ne_zero (Finsupp.single_eq_zero.mp h.symm)) fun m hm h1 h2 => ?_]
    · have e1 := gpos 0 (Finsupp.single i 1) (c 0)
      have e2 := gpos (Finsupp.single i 1) 0 (c (Finsupp.single i 1))
      rw [add_zero] at e1
      rw [zero_add] at e2
      refine (congrArg₂ GoNum.add e1 e2).trans ?_
      rw [F64.mul_commutes (c (Finsupp.single i 1))]
    · rcases linear_exps (hdeg m hm) with e | ⟨k, e⟩
      · exact absurd e h1
      · refine gneg _ _ _ fun hle => ?_
        rw [e] at hle h2
        have h3 := hle k
        rw [Finsupp.single_eq_same, Finsupp.single_apply, if_neg fun h => h2 (by rw [h])] at h3
        omega
  · rw [both, fold_two (g0 _) (gv _) once (e := Finsupp.single j 1) (e' := Finsupp.single i 1)
      (fun h => hj (Finsupp.single_left_injective one_ne_zero h)) fun m hm h1 h2 => other2 i j m hm h2 h1]
    have e1 := gpos (Finsupp.single j 1) (Finsupp.single i 1) (c (Finsupp.single j 1))
    have e2 := gpos (Finsupp.single i 1) (Finsupp.single j 1) (c (Finsupp.single i 1))
    rw [add_comm (Finsupp.single j 1)] at e2
    refine (congrArg₂ GoNum.add e1 e2).trans ?_
    rw [F64.mul_commutes (c (Finsupp.single j 1))]

end Squares

/-! ## Expressions that meet the hypotheses -/

/-- `(0.1 x + 5)^2`: the coefficient of `x` is `fl(h + h)` with `h = fl(5 * 0.1)`. -/
example : ∃ r, f64Lin.power 2 = .ok r ∧ r.coeffAt (Finsupp.single 1 1) =
    GoNum.add (GoNum.mul (f64Lin.coeffAt 0) (f64Lin.coeffAt (Finsupp.single 1 1)))
      (GoNum.mul (f64Lin.coeffAt 0) (f64Lin.coeffAt (Finsupp.single 1 1))) := by
  obtain ⟨r, -, h1, -, -, -, h2⟩ := square_coeffs f64Lin_canon f64Lin_terms f64Lin_floats f64Lin_repeats
  exact ⟨r, h1, (h2 1).2.1⟩

/-- `(3 x y^2)^3 = 27 x^3 y^6`. -/
example : (Scalar.mono (⟨.fin 3, [1, 2], [f64Var 1, f64Var 2]⟩ : Mono F64)).power 3 =
    .ok (.mono ⟨.fin 27, [3, 6], [f64Var 1, f64Var 2]⟩) := by
  refine (power_mono ⟨rfl, by decide, by decide, by
    intro v hv
    simp only [List.mem_cons, List.not_mem_nil, or_false] at hv
    rcases hv with rfl | rfl <;> rfl⟩ 2).trans ?_
  decide +kernel

example : (Scalar.var (f64Var 1)).power 5 = .ok (.mono ⟨.fin 1, [5], [f64Var 1]⟩) := (power_var (v := f64Var 1) rfl 3).2.2

/-- C96: because of rounding, the power of a power is not the power: see `power_power_float_false`. -/
def powOdd : F64 := .fin 208065

/-- C96: `Power(2)` twice and `Power(4)` of the integer `208065` differ in the last bit. -/
theorem power_power_float_false :
    ((Scalar.k powOdd).power 2 >>= fun s => s.power 2) ≠ (Scalar.k powOdd).power 4 := by
  decide +kernel

end Verif
