import Verif.Lemmas.CoefMul
import Verif.Lemmas.Deriv
import Verif.Props.Coefs
import Verif.Props.SignedZero

/-!
# C89: products, multiples and derivatives, coefficient by coefficient

Which `float64` operations compute each coefficient of a product, a multiple and a derivative, and in which order.
-/

set_option linter.unusedSectionVars false

namespace Verif

open MvPolynomial

/-! ## Specification -/

/-- The coefficient of `d` in `a` times a term with the exponents `e` and the coefficient `c`: one multiplication,
or zero if `a` has no term that leads to `d`. -/
noncomputable def Scalar.timesTerm (a : Scalar F64) (e : ℕ →₀ ℕ) (c : F64) (d : ℕ →₀ ℕ) : F64 :=
  open Classical in if ∃ m ∈ a.terms, m.degs + e = d then GoNum.mul (a.coeffAt (d - e)) c else .fin 0

/-- The coefficient of `d` in `a` times `b`: the products with the terms of `b`, added from the first to the last. -/
noncomputable def Scalar.timesAt (a b : Scalar F64) (d : ℕ →₀ ℕ) : F64 :=
  b.terms.foldl (fun acc m => GoNum.add acc (a.timesTerm m.degs m.coeff d)) (.fin 0)

/-- The coefficient of `d` in the derivative by the variable with the ID `i`: one multiplication. -/
noncomputable def Scalar.derivAt (a : Scalar F64) (i : ℕ) (d : ℕ →₀ ℕ) : F64 :=
  open Classical in
  if ∃ m ∈ a.terms, m.degs = d + Finsupp.single i 1 then
    GoNum.mul (a.coeffAt (d + Finsupp.single i 1)) (GoNum.ofInt ((d i + 1 : ℕ) : ℤ))
  else .fin 0

/-! ## Floats -/

theorem F64.value_mul (x y : F64) : (GoNum.mul x y).Value := by
  cases x with
  | nan => cases y <;> trivial
  | inf a =>
    cases y with
    | nan => trivial
    | inf b => trivial
    | fin q =>
      show F64.Value (if q = 0 then F64.nan else F64.inf (a != decide (q < 0)))
      split <;> trivial
  | fin p =>
    cases y with
    | nan => trivial
    | inf b =>
      show F64.Value (if p = 0 then F64.nan else F64.inf (b != decide (p < 0)))
      split <;> trivial
    | fin q => exact F64.value_ofRat _

theorem F64.mul_commutes (x y : F64) : GoNum.mul x y = GoNum.mul y x := by
  cases x <;> cases y
  case fin.fin p q =>
    show F64.ofRat (p * q) = F64.ofRat (q * p)
    rw [mul_comm]
  case inf.inf a b => cases a <;> cases b <;> rfl
  all_goals rfl

theorem F64.mul_one_value {x : F64} (h : x.Value) : GoNum.mul x GoNum.one = x := by
  cases x with
  | nan => rfl
  | inf a =>
    show (if (1 : ℚ) = 0 then F64.nan else F64.inf (a != decide ((1 : ℚ) < 0))) = F64.inf a
    rw [if_neg (by norm_num), decide_eq_false (by norm_num)]
    cases a <;> rfl
  | fin q =>
    show F64.ofRat (q * 1) = F64.fin q
    rw [mul_one]
    exact h

theorem F64.zero_mul_fin (q : ℚ) : GoNum.mul (F64.fin 0) (F64.fin q) = .fin 0 := by
  show F64.ofRat (0 * q) = _
  rw [zero_mul]
  exact_mod_cast F64.able_small (k := 0) (by norm_num)

theorem F64.ofRat_opposite (q : ℚ) : F64.ofRat (-q) = F64.neg (F64.ofRat q) := by
  unfold F64.ofRat
  rw [F64Z.round53_neg, abs_neg]
  split
  · rfl
  · rename_i h
    have h0 : q ≠ 0 := by
      rintro rfl
      apply h
      rw [show round53 0 = 0 by decide +kernel, abs_zero]
      positivity
    rcases lt_or_gt_of_ne h0 with h1 | h1
    · rw [decide_eq_true h1, decide_eq_false (by linarith)]
      rfl
    · rw [decide_eq_false (not_lt.mpr h1.le), decide_eq_true (by linarith)]
      rfl

theorem f64ProdLaws : ProdLaws F64.Value where
  toCoefLaws := f64Laws
  mul x y _ _ := F64.value_mul x y
  mul_comm := F64.mul_commutes
  mul_one _ h := F64.mul_one_value h

/-! ## Products -/

section Products
variable {D D1 D2 D3 : Set (ℕ →₀ ℕ)} {a b : Scalar F64}

private theorem copd (ca : a.Canon) (ta : a.TermsIn D) (va : a.NumsValid) (oa : a.Repeats 1) :
    COpd F64.Value (fun _ => True) D a :=
  ⟨good_mentions ca ta fun _ _ => trivial, va, onceL_iff.mpr oa⟩

/-- C89: `Multiply`. -/
theorem mul_coeffs (hD : RearrFree D3) (hF : D3 ⊆ flat) (h : ProdIn D1 D2 D3) (ca : a.Canon) (cb : b.Canon)
    (ta : a.TermsIn D1) (tb : b.TermsIn D2) (va : a.NumsValid) (vb : b.NumsValid) (oa : a.Repeats 1)
    (ob : b.Repeats 1) :
    ∃ r, a.mul b = .ok r ∧ r.Canon ∧ r.TermsIn D3 ∧ r.NumsValid ∧ r.Repeats 1 ∧
      ∀ d, r.coeffAt d = a.timesAt b d := by
  obtain ⟨r, h1, h2⟩ := Scalar.mul_coef f64ProdLaws hD hF h (copd ca ta va oa) (copd cb tb vb ob)
  obtain ⟨cr, tr, -⟩ := good_iff.mp h2.good
  exact ⟨r, h1, cr, tr, h2.nums, onceL_iff.mp h2.once, h2.coef⟩

/-- With a finite number the condition in `timesTerm` is only that the exponents can be subtracted. -/
theorem timesTerm_fin (a : Scalar F64) (e : ℕ →₀ ℕ) (q : ℚ) (d : ℕ →₀ ℕ) :
    a.timesTerm e (.fin q) d = if e ≤ d then GoNum.mul (a.coeffAt (d - e)) (.fin q) else .fin 0 := by
  by_cases h : ∃ m ∈ a.terms, m.degs + e = d
  · obtain ⟨m, -, rfl⟩ := id h
    rw [if_pos le_add_self]
    exact if_pos h
  · rw [show a.timesTerm e (.fin q) d = .fin 0 from if_neg h]
    split
    · rename_i he
      rw [show a.coeffAt (d - e) = .fin 0 from fco_none fun m hm e' => h ⟨m, hm, by rw [e', tsub_add_cancel_of_le he]⟩,
        F64.zero_mul_fin]
    · rfl

/-- C89: a multiple, with the number on either side: one multiplication for each coefficient. -/
theorem scale_coeffs (hD : RearrFree D) (hF : D ⊆ flat) (ca : a.Canon) (ta : a.TermsIn D) (va : a.NumsValid)
    (oa : a.Repeats 1) {q : ℚ} (hq : F64.Able q) :
    (∃ r, a.mul (.k (.fin q)) = .ok r ∧ r.Repeats 1 ∧ ∀ d, r.coeffAt d = GoNum.mul (a.coeffAt d) (.fin q)) ∧
    (∃ r, (Scalar.k (.fin q)).mul a = .ok r ∧ r.Repeats 1 ∧
      ∀ d, r.coeffAt d = GoNum.mul (a.coeffAt d) (.fin q)) := by
  have ck : (Scalar.k (F64.fin q)).Canon := trivial
  have vk : (Scalar.k (F64.fin q)).NumsValid := numL_single (m := kToMono (F64.fin q)) hq
  have ok : (Scalar.k (F64.fin q)).Repeats 1 := onceL_iff.mp (once_single _)
  have e : ∀ d, a.timesTerm 0 (.fin q) d = GoNum.mul (a.coeffAt d) (.fin q) := by
    intro d
    rw [timesTerm_fin, if_pos (zero_le (a := d)), tsub_zero]
  constructor
  · obtain ⟨r, h1, -, -, -, h2, h3⟩ := mul_coeffs hD hF (prodIn_const D) ca ck ta trivial va vk oa ok
    refine ⟨r, h1, h2, fun d => (h3 d).trans ?_⟩
    rw [← e]
    exact conv_single f64ProdLaws (r := kToMono (F64.fin q)) va hq
  · obtain ⟨r, h1, -, -, -, h2, h3⟩ := mul_coeffs hD hF (prodIn_const D).symm ck ca trivial ta vk va ok oa
    refine ⟨r, h1, h2, fun d => (h3 d).trans ?_⟩
    rw [← e]
    exact single_conv f64ProdLaws (m := kToMono (F64.fin q)) va (onceL_iff.mpr oa) hq

/-- C89: with a factor of one term the order of the factors does not change a bit. -/
theorem mul_comm_term (va : a.NumsValid) (oa : a.Repeats 1) (vb : b.NumsValid) {m : Mono F64} (hb : b.terms = [m])
    (d : ℕ →₀ ℕ) : a.timesAt b d = b.timesAt a d := by
  have h1 : m.coeff.Value := vb m (by rw [hb]; simp)
  have := conv_comm_single (d := d) f64ProdLaws va (onceL_iff.mpr oa) h1
  rw [← hb] at this
  exact this

/-- C89: sums do not depend on the order of the operands. -/
theorem plus_comm_coeffs (hD : RearrFree D) (hF : D ⊆ flat) (ca : a.Canon) (cb : b.Canon) (ta : a.TermsIn D)
    (tb : b.TermsIn D) (va : a.NumsValid) (vb : b.NumsValid) (oa : a.Repeats 1) (ob : b.Repeats 1) :
    ∃ r r', a.plus b = .ok r ∧ b.plus a = .ok r' ∧ ∀ d, r.coeffAt d = r'.coeffAt d := by
  obtain ⟨r, h1, -, -, -, -, h2⟩ := plus_coeffs hD hF ca cb ta tb va vb oa ob
  obtain ⟨r', h1', -, -, -, -, h2'⟩ := plus_coeffs hD hF cb ca tb ta vb va ob oa
  exact ⟨r, r', h1, h1', fun d => by rw [h2, h2']; exact f64Laws.add_comm _ _⟩

/-- C89: an expression with finite coefficients minus itself has no coefficient left. -/
theorem minus_self_coeffs (hD : RearrFree D) (hF : D ⊆ flat) (ca : a.Canon) (ta : a.TermsIn D) (fa : a.Floats)
    (oa : a.Repeats 1) : ∃ r, a.minus a = .ok r ∧ ∀ d, r.coeffAt d = .fin 0 := by
  obtain ⟨r, h1, -, -, -, -, h2⟩ := minus_coeffs hD hF ca ca ta ta fa.valid fa.valid oa oa
  refine ⟨r, h1, fun d => ?_⟩
  rw [h2, coeffAt_exact fa oa]
  exact (F64.sub_zero_iff (Scalar.coeff_able fa oa d) (Scalar.coeff_able fa oa d)).mpr rfl

/-- C89: `b - a` has the coefficients of `a - b` with the other sign, bit for bit. -/
theorem minus_swap_coeffs (hD : RearrFree D) (hF : D ⊆ flat) (ca : a.Canon) (cb : b.Canon) (ta : a.TermsIn D)
    (tb : b.TermsIn D) (fa : a.Floats) (fb : b.Floats) (oa : a.Repeats 1) (ob : b.Repeats 1) :
    ∃ r r', a.minus b = .ok r ∧ b.minus a = .ok r' ∧ ∀ d, r'.coeffAt d = GoNum.neg (r.coeffAt d) := by
  obtain ⟨r, h1, -, -, -, -, h2⟩ := minus_coeffs hD hF ca cb ta tb fa.valid fb.valid oa ob
  obtain ⟨r', h1', -, -, -, -, h2'⟩ := minus_coeffs hD hF cb ca tb ta fb.valid fa.valid ob oa
  refine ⟨r, r', h1, h1', fun d => ?_⟩
  rw [h2, h2', coeffAt_exact fa oa, coeffAt_exact fb ob]
  generalize coeff d a.exact.den = p
  generalize coeff d b.exact.den = q
  show F64.ofRat (q + -p) = F64.neg (F64.ofRat (p + -q))
  rw [← F64.ofRat_opposite, neg_add, neg_neg, add_comm]

end Products

/-! ## Derivatives -/

section Derivatives
variable {v : Var F64}

/-- `derivAt` on lists of terms. -/
noncomputable def dco (i : ℕ) (l : List (Mono F64)) (d : ℕ →₀ ℕ) : F64 :=
  open Classical in
  if ∃ m ∈ l, m.degs = d + Finsupp.single i 1 then
    GoNum.mul (fco (d + Finsupp.single i 1) l) (GoNum.ofInt ((d i + 1 : ℕ) : ℤ))
  else .fin 0

theorem dco_pos {i : ℕ} {l : List (Mono F64)} {d : ℕ →₀ ℕ} (h : ∃ m ∈ l, m.degs = d + Finsupp.single i 1) :
    dco i l d = GoNum.mul (fco (d + Finsupp.single i 1) l) (GoNum.ofInt ((d i + 1 : ℕ) : ℤ)) := if_pos h

theorem dco_neg {i : ℕ} {l : List (Mono F64)} {d : ℕ →₀ ℕ} (h : ¬∃ m ∈ l, m.degs = d + Finsupp.single i 1) :
    dco i l d = .fin 0 := if_neg h

theorem dco_one {i : ℕ} {m : Mono F64} {d : ℕ →₀ ℕ} : dco i [m] d = if m.degs = d + Finsupp.single i 1 then
    GoNum.mul m.coeff (GoNum.ofInt ((d i + 1 : ℕ) : ℤ)) else .fin 0 := by
  by_cases h : m.degs = d + Finsupp.single i 1
  · rw [if_pos h, dco_pos ⟨m, by simp, h⟩, fco_cons, if_pos h]
  · rw [if_neg h, dco_neg]
    rintro ⟨x, hx, e⟩
    rw [List.mem_singleton] at hx
    subst hx
    exact h e

theorem ofInt_one : (GoNum.ofInt 1 : F64) = GoNum.one := by
  show F64.ofRat ((1 : ℤ) : ℚ) = F64.fin 1
  exact_mod_cast F64.able_small (k := 1) (by norm_num)

theorem dco_step {i : ℕ} {pre : List (Mono F64)} {m : Mono F64} (ho : OnceL (pre ++ [m])) (d : ℕ →₀ ℕ) :
    dco i (pre ++ [m]) d = if m.degs = d + Finsupp.single i 1 then dco i [m] d else dco i pre d := by
  have hne : ∀ x ∈ pre, x.degs ≠ m.degs := by
    intro x hx e
    unfold OnceL at ho
    rw [List.map_append, List.nodup_append] at ho
    exact ho.2.2 _ (List.mem_map.mpr ⟨x, hx, rfl⟩) _ (by simp) e
  by_cases h : m.degs = d + Finsupp.single i 1
  · rw [if_pos h, dco_pos ⟨m, by simp, h⟩, dco_pos ⟨m, by simp, h⟩, fco_append_none]
    intro x hx e
    exact hne x hx (e.trans h.symm)
  · rw [if_neg h]
    have e1 : fco (d + Finsupp.single i 1) (pre ++ [m]) = fco (d + Finsupp.single i 1) pre := by
      clear ho hne
      induction pre with
      | nil => rw [List.nil_append, fco_cons, if_neg h]
      | cons x l ih => rw [List.cons_append, fco_cons, fco_cons, ih]
    by_cases ht : ∃ x ∈ pre, x.degs = d + Finsupp.single i 1
    · rw [dco_pos ht, dco_pos (ht.imp fun x hx => ⟨by simp [hx.1], hx.2⟩), e1]
    · rw [dco_neg ht, dco_neg]
      rintro ⟨x, hx, e⟩
      rcases List.mem_append.mp hx with hx | hx
      · exact ht ⟨x, hx, e⟩
      · rw [List.mem_singleton] at hx
        subst hx
        exact h e

/-- One term. -/
theorem DerivResult.coef {m : Mono F64} (hm : m.Canon) (hN : m.coeff.Value) {r : Scalar F64}
    (h : DerivResult m v r) : ∃ x : Mono F64, r.terms = [x] ∧ x.coeff.Value ∧ (∀ d, fco d [x] = dco v.id [m] d) ∧
      (x.degs + Finsupp.single v.id 1 = m.degs ∨ r = .k GoNum.zero) := by
  have key : ∀ x : Mono F64, x.degs + Finsupp.single v.id 1 = m.degs →
      x.coeff = GoNum.mul m.coeff (GoNum.ofInt ((m.degs v.id : ℕ) : ℤ)) → ∀ d, fco d [x] = dco v.id [m] d := by
    intro x h1 h2 d
    rw [fco_cons, dco_one]
    by_cases hd : x.degs = d
    · subst hd
      rw [if_pos rfl, if_pos h1.symm, h2, ← h1]
      simp
    · rw [if_neg hd, if_neg]
      · rfl
      · intro e
        exact hd (add_right_cancel (h1.trans e))
  cases h with
  | absent h =>
    refine ⟨kToMono GoNum.zero, rfl, f64Laws.zero, fun d => ?_, Or.inr rfl⟩
    rw [dco_one, if_neg]
    · show (if _ then GoNum.zero else GoNum.zero) = _
      simp
      rfl
    · intro e
      have := Mono.degs_apply_notMem hm.len h
      rw [e] at this
      simp at this
  | linear w hv he hw =>
    have hd : m.degs = Finsupp.single v.id 1 := by
      rcases m with ⟨c, es, vs⟩
      simp only at hv he
      subst hv he
      rw [Var.degs_one, hw]
      rfl
    have h1 : (kToMono m.coeff).degs + Finsupp.single v.id 1 = m.degs := by
      rw [hd, kToMono_degs, zero_add]
    refine ⟨kToMono m.coeff, rfl, hN, key _ h1 ?_, Or.inl h1⟩
    rw [hd, Finsupp.single_eq_same]
    show m.coeff = GoNum.mul m.coeff (GoNum.ofInt 1)
    rw [ofInt_one, F64.mul_one_value hN]
  | erase d hd hv hc hdeg h1 =>
    refine ⟨d, rfl, by rw [hc]; exact hN, key _ hdeg ?_, Or.inl hdeg⟩
    rw [h1, hc]
    show m.coeff = GoNum.mul m.coeff (GoNum.ofInt 1)
    rw [ofInt_one, F64.mul_one_value hN]
  | dec d e hd hv hc hdeg he h2 =>
    refine ⟨d, rfl, by rw [hc]; exact F64.value_mul _ _, key _ hdeg ?_, Or.inl hdeg⟩
    rw [hc, he, Int.toNat_of_nonneg (by omega)]

/-- The terms collected so far. -/
structure DerivCo (v : Var F64) (pre acc : List (Mono F64)) : Prop where
  once : OnceL acc
  nums : NumL F64.Value acc
  mem : ∀ x ∈ acc, ∃ m ∈ pre, x.degs + Finsupp.single v.id 1 = m.degs
  coef : ∀ d, fco d acc = dco v.id pre d

theorem fco_append_other {d : ℕ →₀ ℕ} {l : List (Mono F64)} {m : Mono F64} (h : m.degs ≠ d) :
    fco d (l ++ [m]) = fco d l := by
  induction l with
  | nil => rw [List.nil_append, fco_cons, if_neg h]
  | cons x l ih => rw [List.cons_append, fco_cons, fco_cons, ih]

theorem derivFold_coef (hv : v.OK) {l : List (Mono F64)} (hl : ∀ m ∈ l, m.Canon) (hN : NumL F64.Value l)
    (ho : OnceL l) : Go.Ok (l.foldlM (derivStep v) []) (DerivCo v l) := by
  refine Go.foldlM_ok' _ (DerivCo v) l [] ⟨by simp [OnceL], by simp [NumL], by simp, fun d => ?_⟩ ?_
  · rw [dco_neg (by simp)]
    rfl
  rintro pre m acc ⟨post, e⟩ hI
  have hm : m ∈ l := by rw [e]; simp
  have ho' : OnceL (pre ++ [m]) := by
    unfold OnceL at ho ⊢
    rw [e, show pre ++ m :: post = (pre ++ [m]) ++ post by simp, List.map_append] at ho
    exact (List.nodup_append.mp ho).1
  have hne : ∀ x ∈ pre, x.degs ≠ m.degs := by
    intro x hx e
    unfold OnceL at ho'
    rw [List.map_append, List.nodup_append] at ho'
    exact ho'.2.2 _ (List.mem_map.mpr ⟨x, hx, rfl⟩) _ (by simp) e
  have hmem : ∀ x ∈ acc, ∃ n ∈ pre ++ [m], x.degs + Finsupp.single v.id 1 = n.degs := fun x hx => by
    obtain ⟨n, hn, e⟩ := hI.mem x hx
    exact ⟨n, by simp [hn], e⟩
  have hpre : ∀ d, m.degs = d + Finsupp.single v.id 1 → dco v.id pre d = .fin 0 := by
    intro d hd
    rw [dco_neg]
    rintro ⟨x, hx, e⟩
    exact hne x hx (e.trans hd.symm)
  have skip : (∀ d, dco v.id [m] d = .fin 0) → DerivCo v (pre ++ [m]) acc := fun hz =>
    ⟨hI.once, hI.nums, hmem, fun d => by
      rw [hI.coef, dco_step ho']
      split
      · rename_i hd
        rw [hz, hpre d hd]
      · rfl⟩
  have push : ∀ x : Mono F64, x.coeff.Value → (∀ d, fco d [x] = dco v.id [m] d) →
      x.degs + Finsupp.single v.id 1 = m.degs → DerivCo v (pre ++ [m]) (acc ++ [x]) := by
    intro x hx hc hd
    have hacc : ∀ y ∈ acc, y.degs ≠ x.degs := by
      intro y hy e
      obtain ⟨n, hn, e'⟩ := hI.mem y hy
      exact hne n hn (by rw [← e', e, hd])
    refine ⟨?_, ?_, ?_, fun d => ?_⟩
    · unfold OnceL
      rw [List.map_append, List.nodup_append]
      refine ⟨hI.once, by simp, ?_⟩
      intro y hy z hz
      obtain ⟨y, hy', rfl⟩ := List.mem_map.mp hy
      simp only [List.map_cons, List.map_nil, List.mem_singleton] at hz
      subst hz
      exact hacc y hy'
    · intro y hy
      rcases List.mem_append.mp hy with hy | hy
      · exact hI.nums y hy
      · rw [List.mem_singleton] at hy
        subst hy
        exact hx
    · intro y hy
      rcases List.mem_append.mp hy with hy | hy
      · exact hmem y hy
      · rw [List.mem_singleton] at hy
        subst hy
        exact ⟨m, by simp, hd⟩
    · rw [dco_step ho']
      by_cases h : x.degs = d
      · rw [if_pos (by rw [← hd, h]), fco_append_none (fun y hy => by rw [← h]; exact hacc y hy), hc]
      · rw [if_neg (fun e => h (add_right_cancel (hd.trans e))), fco_append_other h, hI.coef]
  unfold derivStep
  by_cases hc : m.isConstant = true
  · rw [if_pos hc]
    refine Go.ok_pure (skip fun d => ?_)
    have hv0 : m.vars = [] := by simpa [Mono.isConstant] using hc
    rw [dco_one, (hl m hm).degs_eq_zero.mpr hv0, if_neg]
    intro e
    have := DFunLike.congr_fun e v.id
    simp at this
  · rw [if_neg hc]
    refine (Mono.derivative_ok (hl m hm) hv).bind fun r hr => ?_
    obtain ⟨x, h1, h2, h3, h4⟩ := hr.coef (hl m hm) (hN m hm)
    cases r with
    | k c =>
      have e1 : kToMono c = x := by simpa [Scalar.terms] using h1
      subst e1
      by_cases hz : GoNum.feq c GoNum.zero = true
      · simp only [if_pos hz]
        refine Go.ok_pure (skip fun d => ?_)
        rw [← h3, fco_cons]
        have : c = GoNum.zero := f64Laws.feq_zero c h2 hz
        subst this
        show (if _ then GoNum.zero else GoNum.zero) = _
        simp
        rfl
      · simp only [if_neg hz]
        refine Go.ok_pure (push _ h2 h3 ?_)
        rcases h4 with h | h
        · exact h
        · cases h
          exact absurd rfl hz
    | mono y =>
      have e1 : y = x := by simpa [Scalar.terms] using h1
      subst e1
      refine Go.ok_pure (push _ h2 h3 ?_)
      rcases h4 with h | h
      · exact h
      · cases h
    | var _ => cases hr
    | poly _ => cases hr

/-- C89: `DerivativeWrt`, for every well-formed expression without repeated exponents: each coefficient is one
product, and no term is merged or lost. -/
theorem derivative_coeffs_exact {a : Scalar F64} (ca : a.Canon) (va : a.NumsValid) (oa : a.Repeats 1) (hv : v.OK) :
    ∃ r, a.derivative v = .ok r ∧ r.NumsValid ∧ r.Repeats 1 ∧ ∀ d, r.coeffAt d = a.derivAt v.id d := by
  suffices h : Go.Ok (a.derivative v) fun r => NumL F64.Value r.terms ∧ OnceL r.terms ∧
      ∀ d, fco d r.terms = dco v.id a.terms d by
    obtain ⟨r, h1, h2, h3, h4⟩ := h
    exact ⟨r, h1, h2, onceL_iff.mp h3, h4⟩
  have zero : ∀ d, fco d (Scalar.k (GoNum.zero : F64)).terms = .fin 0 := by
    intro d
    show (if _ then GoNum.zero else GoNum.zero) = _
    simp
    rfl
  cases a with
  | k c =>
    refine Go.ok_pure ⟨numL_single f64Laws.zero, once_single _, fun d => ?_⟩
    rw [zero]
    show _ = dco v.id [kToMono c] d
    rw [dco_one, if_neg]
    intro e
    have := DFunLike.congr_fun e v.id
    simp [kToMono_degs] at this
  | var w =>
    have hw : w.OK := ca
    have hd : (w.toMono : Mono F64).degs = Finsupp.single w.id 1 := Var.degs_one w GoNum.one 1
    show Go.Ok (do w.check; v.check; if w.id = v.id then return Scalar.k GoNum.one else return Scalar.k GoNum.zero) _
    rw [hw.check, hv.check, Go.ok_bind, Go.ok_bind]
    by_cases e : w.id = v.id
    · rw [if_pos e]
      refine Go.ok_pure ⟨numL_single f64Laws.one, once_single _, fun d => ?_⟩
      show (if (0 : ℕ →₀ ℕ) = d then GoNum.one else GoNum.zero) = dco v.id [w.toMono] d
      rw [dco_one, hd, e]
      by_cases h : (0 : ℕ →₀ ℕ) = d
      · subst h
        rw [if_pos rfl, if_pos (zero_add _).symm]
        show _ = GoNum.mul GoNum.one (GoNum.ofInt 1)
        rw [ofInt_one, F64.mul_one_value f64Laws.one]
      · rw [if_neg h, if_neg]
        · rfl
        · intro e
          exact h (add_right_cancel ((zero_add _).trans e))
    · rw [if_neg e]
      refine Go.ok_pure ⟨numL_single f64Laws.zero, once_single _, fun d => ?_⟩
      rw [zero]
      show _ = dco v.id [w.toMono] d
      rw [dco_one, hd, if_neg]
      intro h
      have := DFunLike.congr_fun h v.id
      rw [Finsupp.single_eq_of_ne (Ne.symm e)] at this
      simp at this
  | mono m =>
    refine (Mono.derivative_ok ca hv).mono fun r hr => ?_
    obtain ⟨x, h1, h2, h3, -⟩ := hr.coef ca (va m (by simp [Scalar.terms]))
    rw [h1]
    exact ⟨numL_single h2, once_single _, h3⟩
  | poly p =>
    show Go.Ok (p.derivative v) _
    unfold Poly.derivative
    have hp : p.Canon := ca
    rw [(show p.check = .ok () from Good.check (s := .poly p) (good_of_univ (s := .poly p) hp)), hv.check, Go.ok_bind, Go.ok_bind]
    refine (derivFold_coef hv hp.all va (onceL_iff.mpr oa)).bind fun ms hms => ?_
    by_cases he : ms.isEmpty = true
    · rw [if_pos he]
      have : ms = [] := by simpa using he
      subst this
      refine Go.ok_pure ⟨numL_single f64Laws.zero, once_single _, fun d => ?_⟩
      rw [zero, ← show _ = dco v.id (Scalar.poly p).terms d from hms.coef d]
      rfl
    · rw [if_neg he]
      exact Go.ok_pure ⟨hms.nums, hms.once, hms.coef⟩

end Derivatives

/-! ## Expressions that meet the hypotheses -/

/-- `(0.1 x + 5) * (0.1 x + 5)`: the coefficient of `x` is `fl(fl(5 * 0.1) + fl(0.1 * 5))`. -/
example : ∃ r, f64Lin.mul f64Lin = .ok r ∧ ∀ d, r.coeffAt d = f64Lin.timesAt f64Lin d := by
  have o1 : f64Lin.Repeats 1 := f64Lin_repeats
  obtain ⟨r, h1, -, -, -, -, h2⟩ := mul_coeffs rearrFree_degLE_two degLE_two_flat (prodIn_degLE 1 1) f64Lin_canon
    f64Lin_canon f64Lin_terms f64Lin_terms f64Lin_floats.valid f64Lin_floats.valid o1 o1
  exact ⟨r, h1, h2⟩

example : ∃ r, f64Lin.derivative (f64Var 1) = .ok r ∧ r.coeffAt 0 = .fin f64Tenth := by
  obtain ⟨r, h1, -, -, h2⟩ := derivative_coeffs_exact (v := f64Var 1) f64Lin_canon f64Lin_floats.valid f64Lin_repeats rfl
  refine ⟨r, h1, ?_⟩
  have hd : (⟨.fin f64Tenth, [1], [f64Var 1]⟩ : Mono F64).degs = 0 + Finsupp.single 1 1 := by
    rw [zero_add]
    exact Var.degs_one _ _ _
  rw [h2]
  show dco 1 [⟨.fin f64Tenth, [1], [f64Var 1]⟩, ⟨.fin 5, [], []⟩] 0 = _
  rw [dco_pos ⟨_, by simp, hd⟩, fco_cons, if_pos hd]
  show GoNum.mul (F64.fin f64Tenth) (GoNum.ofInt 1) = _
  rw [ofInt_one]
  exact F64.mul_one_value (f64Lin_floats.valid ⟨.fin f64Tenth, [1], [f64Var 1]⟩ (by simp [f64Lin, Scalar.terms]))

/-- `x^2 + 2^-53 x + 2^-53` and `x^2 + x + 1`. -/
def f64QuadA : Scalar F64 := .poly ⟨[⟨.fin (1 / 2 ^ 53), [], []⟩, ⟨.fin (1 / 2 ^ 53), [1], [f64Var 1]⟩,
  ⟨.fin 1, [2], [f64Var 1]⟩]⟩

@[inherit_doc f64QuadA]
def f64QuadB : Scalar F64 := .poly ⟨[⟨.fin 1, [], []⟩, ⟨.fin 1, [1], [f64Var 1]⟩, ⟨.fin 1, [2], [f64Var 1]⟩]⟩

/-- The coefficients of `x^2` in a result. -/
def squareCoeffs : Go (Scalar F64) → List F64
  | .ok r => (r.terms.filter fun m => m.exps = [2]).map (·.coeff)
  | _ => []

/-- C89: with more terms in both factors the order of the factors does matter, in the last bit:
`(1 + 2^-53) + 2^-53` is 1 and `(2^-53 + 2^-53) + 1` is not. -/
theorem mul_comm_float_false : squareCoeffs (f64QuadA.mul f64QuadB) = [.fin 1] ∧
    squareCoeffs (f64QuadB.mul f64QuadA) = [.fin (1 + 1 / 2 ^ 52)] := by
  decide +kernel

end Verif
