import Verif.Props.Twice

/-!
# C103: constraints with both sides multiplied by two

The row and the bound of the new constraint are those of the old one, each multiplied by two, bit for bit.
-/

set_option linter.unusedSectionVars false

namespace Verif

private theorem mul_neg_two (x : F64) : GoNum.mul (GoNum.neg x) (F64.fin 2) = GoNum.neg (GoNum.mul x (F64.fin 2)) := by
  cases x with
  | nan => rfl
  | inf a => cases a <;> decide +kernel
  | fin q =>
    show F64.ofRat (-q * 2) = F64.neg (F64.ofRat (q * 2))
    rw [neg_mul, F64.ofRat_opposite]

private theorem sub_twice {x y : F64} (hx : x.Value) (hy : y.Value) (h1 : ∃ r, GoNum.mul x (F64.fin 2) = .fin r)
    (h2 : ∃ s, GoNum.mul y (F64.fin 2) = .fin s) :
    GoNum.sub (GoNum.mul x (F64.fin 2)) (GoNum.mul y (F64.fin 2)) = GoNum.mul (GoNum.sub x y) (F64.fin 2) := by
  obtain ⟨r, h1⟩ := h1
  obtain ⟨s, h2⟩ := h2
  have hy' : (GoNum.neg y).Value := by
    have := F64.value_mul y negOne
    rwa [F64.mul_negOne hy] at this
  have := F64.two_distrib hx hy' h1 (s := -s) (by rw [mul_neg_two, h2]; rfl)
  rw [mul_neg_two] at this
  exact this.symm

private theorem orient_twice (s : Sense) (x : F64) :
    s.orient (GoNum.mul x (F64.fin 2)) = GoNum.mul (s.orient x) (F64.fin 2) := by
  cases s <;> first | rfl | exact (mul_neg_two x).symm

variable {c : SCon F64} {ws : List (Var F64)}

/-- Nothing overflows when the coefficients of the sides, and their differences, are doubled. -/
structure SCon.Doubles (c : SCon F64) : Prop where
  lhs : ∀ d, ∃ q, GoNum.mul (c.lhs.coeffAt d) (F64.fin 2) = .fin q
  rhs : ∀ d, ∃ q, GoNum.mul (c.rhs.coeffAt d) (F64.fin 2) = .fin q
  diff : ∀ d, ∃ q, GoNum.mul (GoNum.sub (c.lhs.coeffAt d) (c.rhs.coeffAt d)) (F64.fin 2) = .fin q

private theorem side {a : Scalar F64} {P : Var F64 → Prop} (ca : a.Canon) (ta : a.TermsIn (degLE 1)) (fa : a.Floats)
    (oa : a.Repeats 1) (hP : ∀ v, a.Mentions v → P v) (hf : ∀ d, ∃ q, GoNum.mul (a.coeffAt d) (F64.fin 2) = .fin q) :
    ∃ r, a.mul (.k (.fin 2)) = .ok r ∧ r.Canon ∧ r.TermsIn (degLE 1) ∧ r.Floats ∧ r.Repeats 1 ∧
      (∀ v, r.Mentions v → P v) ∧ ∀ d, r.coeffAt d = GoNum.mul (a.coeffAt d) (F64.fin 2) := by
  have hk : COpd F64.Value P ∅ (Scalar.k (F64.fin 2)) :=
    ⟨trivial, numL_single (N := F64.Value) (m := kToMono (F64.fin 2)) F64.able_two, once_single _⟩
  obtain ⟨r, h1, h2⟩ := Scalar.mul_coef (P := P) f64ProdLaws rearrFree_degLE_one degLE_one_flat (prodIn_const _)
    ⟨good_mentions ca ta hP, fa.valid, onceL_iff.mpr oa⟩ hk
  obtain ⟨r', h3, -, h4⟩ := (scale_coeffs rearrFree_degLE_one degLE_one_flat ca ta fa.valid oa F64.able_two).1
  rw [h1, Except.ok.injEq] at h3
  subst h3
  obtain ⟨cr, tr, mr⟩ := good_iff.mp h2.good
  have once := onceL_iff.mp h2.once
  exact ⟨r, h1, cr, tr, floats_of_coeffs h2.nums once fun d => by rw [h4]; exact hf d, once, mr, h4⟩

private theorem core (h : c.LinearFloats) (hcov : c.CoveredBy ws) (h2 : c.Doubles) :
    ∃ l r, c.lhs.mul (.k (.fin 2)) = .ok l ∧ c.rhs.mul (.k (.fin 2)) = .ok r ∧
      (⟨l, r, c.sense⟩ : SCon F64).LinearFloats ∧ (⟨l, r, c.sense⟩ : SCon F64).FiniteDiff ∧
      (⟨l, r, c.sense⟩ : SCon F64).CoveredBy ws ∧
      (∀ w, (⟨l, r, c.sense⟩ : SCon F64).rowAt w = GoNum.mul (c.rowAt w) (F64.fin 2)) ∧
      (⟨l, r, c.sense⟩ : SCon F64).boundAt = GoNum.mul c.boundAt (F64.fin 2) := by
  obtain ⟨l, l1, l2, l3, l4, l5, l6, l7⟩ := side (P := c.Mentions) h.canon.lhs h.terms.lhs h.lfloats h.lonce
    (fun v hv => Or.inl hv) h2.lhs
  obtain ⟨r, r1, r2, r3, r4, r5, r6, r7⟩ := side (P := c.Mentions) h.canon.rhs h.terms.rhs h.rfloats h.ronce
    (fun v hv => Or.inr hv) h2.rhs
  have vl : ∀ d, (c.lhs.coeffAt d).Value := fun d => coeffAt_valid h.lfloats d
  have vr : ∀ d, (c.rhs.coeffAt d).Value := fun d => coeffAt_valid h.rfloats d
  have men : ∀ v, (⟨l, r, c.sense⟩ : SCon F64).Mentions v → c.Mentions v := by
    rintro v (hv | hv)
    · exact l6 v hv
    · exact r6 v hv
  refine ⟨l, r, l1, r1,
    ⟨⟨l2, r2, h.canon.sense⟩, ⟨l3, r3⟩, l4, r4, l5, r5, fun v hv => h.bounds v (men v hv)⟩, fun d => ?_,
    fun v hv => hcov v (men v hv), fun w => ?_, ?_⟩
  · show ∃ q, GoNum.sub (l.coeffAt d) (r.coeffAt d) = .fin q
    rw [l7, r7, sub_twice (vl d) (vr d) (h2.lhs d) (h2.rhs d)]
    exact h2.diff d
  · show GoNum.sub (l.coeffAt _) (r.coeffAt _) = _
    rw [l7, r7, sub_twice (vl _) (vr _) (h2.lhs _) (h2.rhs _)]
    rfl
  · show GoNum.sub (r.coeffAt 0) (l.coeffAt 0) = _
    rw [l7, r7, sub_twice (vr _) (vl _) (h2.rhs _) (h2.lhs _)]
    rfl

/-- C103: `LinearInequalityConstraintRepresentation` of a constraint with both sides multiplied by two. -/
theorem linearIneq_twice (h : c.LinearFloats) (hne : ws ≠ []) (hok : ∀ w ∈ ws, w.OK ∧ w.BoundsOK)
    (hnd : (ws.map (·.id)).Nodup) (hcov : c.CoveredBy ws) (hG : c.FiniteDiff) (h2 : c.Doubles) :
    ∃ l r A b, c.lhs.mul (.k (.fin 2)) = .ok l ∧ c.rhs.mul (.k (.fin 2)) = .ok r ∧
      c.linearIneq [ws] = .ok (A, b) ∧
      (⟨l, r, c.sense⟩ : SCon F64).linearIneq [ws] =
        .ok (A.map (fun x => GoNum.mul x (F64.fin 2)), GoNum.mul b (F64.fin 2)) := by
  obtain ⟨l, r, l1, r1, h', hG', hcov', e1, e2⟩ := core h hcov h2
  refine ⟨l, r, _, _, l1, r1, linearIneq_coeffs h hne hok hnd hcov hG, ?_⟩
  rw [linearIneq_coeffs h' hne hok hnd hcov' hG', List.map_map, e2]
  simp only [e1, orient_twice]
  rfl

/-- C103: `LinearEqualityConstraintRepresentation`. -/
theorem linearEq_twice (h : c.LinearFloats) (hs : c.sense = .eq) (hne : ws ≠ [])
    (hok : ∀ w ∈ ws, w.OK ∧ w.BoundsOK) (hnd : (ws.map (·.id)).Nodup) (hcov : c.CoveredBy ws) (hG : c.FiniteDiff)
    (h2 : c.Doubles) :
    ∃ l r A b, c.lhs.mul (.k (.fin 2)) = .ok l ∧ c.rhs.mul (.k (.fin 2)) = .ok r ∧
      c.linearEq [ws] = .ok (A, b) ∧
      (⟨l, r, c.sense⟩ : SCon F64).linearEq [ws] =
        .ok (A.map (fun x => GoNum.mul x (F64.fin 2)), GoNum.mul b (F64.fin 2)) := by
  obtain ⟨l, r, l1, r1, h', hG', hcov', e1, e2⟩ := core h hcov h2
  refine ⟨l, r, _, _, l1, r1, linearEq_coeffs h hs hne hok hnd hcov hG, ?_⟩
  rw [linearEq_coeffs h' hs hne hok hnd hcov' hG', List.map_map, e2]
  exact congrArg Except.ok (Prod.ext (List.map_congr_left fun w _ => e1 w) rfl)

/-- C103: the factor three changes the row by more than the factor: `0.1 x ≤ -0.4 x` has the row `0.5`; with both sides
times three it is not `1.5`. -/
theorem linearIneq_thrice_false :
    (⟨.mono ⟨F64.fin f64Tenth, [1], [f64Var 1]⟩, .mono ⟨F64.fin (-(4 * f64Tenth)), [1], [f64Var 1]⟩, .le⟩ :
      SCon F64).linearIneq [[f64Var 1]] = .ok ([F64.fin (1 / 2)], F64.fin 0) ∧
    ((Scalar.mono ⟨F64.fin f64Tenth, [1], [f64Var 1]⟩).mul (.k (F64.fin 3)) >>= fun l =>
      (Scalar.mono ⟨F64.fin (-(4 * f64Tenth)), [1], [f64Var 1]⟩).mul (.k (F64.fin 3)) >>= fun r =>
        (⟨l, r, .le⟩ : SCon F64).linearIneq [[f64Var 1]]) = .ok ([F64.fin (3 / 2 + 1 / 2 ^ 52)], F64.fin 0) := by
  decide +kernel

/-! ## A constraint that meets the hypotheses -/

private def isFin : F64 → Bool
  | .fin _ => true
  | _ => false

private theorem fin_of {x : F64} (h : isFin x = true) : ∃ q, x = .fin q := by
  cases x with
  | fin q => exact ⟨q, rfl⟩
  | _ => cases h

private theorem lhs_cases (d : ℕ →₀ ℕ) :
    f64LinCon.lhs.coeffAt d = .fin f64Tenth ∨ f64LinCon.lhs.coeffAt d = .fin 5 ∨ f64LinCon.lhs.coeffAt d = .fin 0 := by
  show fco d [_, _] = _ ∨ fco d [_, _] = _ ∨ fco d [_, _] = _
  rw [fco_cons, fco_cons]
  split
  · exact Or.inl rfl
  · split
    · exact Or.inr (Or.inl rfl)
    · exact Or.inr (Or.inr rfl)

private theorem rhs_cases (d : ℕ →₀ ℕ) : f64LinCon.rhs.coeffAt d = .fin 1 ∨ f64LinCon.rhs.coeffAt d = .fin 0 := by
  show fco d [_] = _ ∨ fco d [_] = _
  rw [fco_cons]
  split
  · exact Or.inl rfl
  · exact Or.inr rfl

theorem f64LinCon_doubles : f64LinCon.Doubles where
  lhs d := by
    rcases lhs_cases d with h | h | h <;> rw [h] <;> exact fin_of (by decide +kernel)
  rhs d := by
    rcases rhs_cases d with h | h <;> rw [h] <;> exact fin_of (by decide +kernel)
  diff d := by
    rcases lhs_cases d with h | h | h <;> rcases rhs_cases d with h' | h' <;> rw [h, h'] <;>
      exact fin_of (by decide +kernel)

/-- `0.1 x + 5 ≤ x`. -/
example : ∃ l r A b, f64LinCon.lhs.mul (.k (.fin 2)) = .ok l ∧ f64LinCon.rhs.mul (.k (.fin 2)) = .ok r ∧
    f64LinCon.linearIneq [[f64Var 1]] = .ok (A, b) ∧
    (⟨l, r, .le⟩ : SCon F64).linearIneq [[f64Var 1]] =
      .ok (A.map (fun x => GoNum.mul x (F64.fin 2)), GoNum.mul b (F64.fin 2)) :=
  linearIneq_twice f64LinCon_floats (by simp) (fun w hw => by
    rw [List.mem_singleton] at hw
    subst hw
    exact ⟨rfl, f64Var_bounds _⟩) (by simp) f64LinCon_covered (finiteDiff_of f64LinCon_floats f64LinCon_fits)
    f64LinCon_doubles

/-- `0.1 x + 5 == x`. -/
example : ∃ l r A b, f64LinCon.lhs.mul (.k (.fin 2)) = .ok l ∧ f64LinCon.rhs.mul (.k (.fin 2)) = .ok r ∧
    (⟨f64LinCon.lhs, f64LinCon.rhs, .eq⟩ : SCon F64).linearEq [[f64Var 1]] = .ok (A, b) ∧
    (⟨l, r, .eq⟩ : SCon F64).linearEq [[f64Var 1]] =
      .ok (A.map (fun x => GoNum.mul x (F64.fin 2)), GoNum.mul b (F64.fin 2)) := by
  have h := f64LinCon_floats
  have h' : (⟨f64LinCon.lhs, f64LinCon.rhs, .eq⟩ : SCon F64).LinearFloats :=
    ⟨⟨h.canon.lhs, h.canon.rhs, by simp [Sense.OK]⟩, ⟨h.terms.lhs, h.terms.rhs⟩, h.lfloats, h.rfloats, h.lonce, h.ronce,
      h.bounds⟩
  exact linearEq_twice h' rfl (by simp) (fun w hw => by
    rw [List.mem_singleton] at hw
    subst hw
    exact ⟨rfl, f64Var_bounds _⟩) (by simp) f64LinCon_covered (finiteDiff_of h' f64LinCon_fits)
    ⟨f64LinCon_doubles.lhs, f64LinCon_doubles.rhs, f64LinCon_doubles.diff⟩

end Verif
