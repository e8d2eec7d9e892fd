import Verif.Props.Constr
import Verif.WitnessConstraint

/-!
# C34 - C37, C41: counterexamples and concrete cases
-/

namespace Verif

open MvPolynomial

/-- `x + 1 <= 3` -/
def wc1 : SCon ℚ := ⟨.poly ⟨[wm1 1 0 1, wm0 1]⟩, .k 3, .le⟩
/-- `2x - 3y + 7 >= 4 - z` -/
def wc2 : SCon ℚ := ⟨.poly ⟨[wm1 2 0 1, wm1 (-3) 1 1, wm0 7]⟩, .poly ⟨[wm0 4, wm1 (-1) 2 1]⟩, .ge⟩
/-- `x^2*y = y^2*x` -/
def wc3 : SCon ℚ := ⟨wA, wB, .eq⟩

theorem wc1_ok : wc1.Canon ∧ wc1.TermsIn (degLE 1) := SCon.okDeg_spec (by decide +kernel)
theorem wc2_ok : wc2.Canon ∧ wc2.TermsIn (degLE 1) := SCon.okDeg_spec (by decide +kernel)
theorem wc3_ok : wc3.Canon := ⟨wA_canon, wB_canon, Or.inl rfl⟩

theorem wc2_low : wc2.LowDistinct := by
  constructor <;> simp [wc2, Scalar.LowDistinct, wm1_degs, wm0_degs, Finsupp.single_eq_single_iff,
    eq_comm (a := (0 : ℕ →₀ ℕ))]

/-! ## C34 -/

/-- The second half of C34 is false: `x + 1 <= 3` is returned unchanged, and `Simplify` never removes
a constant of the left side. -/
theorem simplify_con_constant_false :
    ¬ ∀ c : SCon ℚ, c.Canon → c.LowDistinct → c.TermsIn (degLE 1) →
      ∃ c', c.simplify = .ok c' ∧ coeff 0 c'.lhs.den = 0 := by
  intro h
  obtain ⟨c', h1, h2⟩ := h wc1 wc1_ok.1
    ⟨by simp [wc1, Scalar.LowDistinct, wm1_degs, wm0_degs], trivial⟩ wc1_ok.2
  have h3 : wc1.simplify = .ok wc1 := by decide +kernel
  rw [h3, Except.ok.injEq] at h1
  subst h1
  simp [wc1, Mono.den, coeff_monomial, wm0, wm1, Mono.degs] at h2

/-- C34 is false for terms that are rearrangements of each other: `x^2*y = y^2*x` becomes `0 = 0`. -/
theorem simplify_con_false :
    ¬ ∀ c : SCon ℚ, c.Canon → ∃ c', c.simplify = .ok c' ∧ ∀ ρ, c'.Sat ρ ↔ c.Sat ρ := by
  intro h
  obtain ⟨c', h1, h2⟩ := h wc3 wc3_ok
  have h3 : wc3.simplify = .ok ⟨.k 0, .k 0, .eq⟩ := by decide +kernel
  rw [h3, Except.ok.injEq] at h1
  subst h1
  exact absurd (h2 wρ) (by decide +kernel)

/-- `2x - 3y + 7 >= 4 - z` becomes `2x - 3y + z + 7 >= 4`. -/
example : wc2.simplify =
    .ok ⟨.poly ⟨[wm0 7, wm1 2 0 1, wm1 (-3) 1 1, wm1 1 2 1]⟩, .k 4, .ge⟩ := by decide +kernel

example : ∃ c', wc2.simplify = .ok c' ∧ ∀ ρ, c'.Sat ρ ↔ wc2.Sat ρ := by
  obtain ⟨c', _, h1, _, _, _, _, _, _, h⟩ := simplify_con_partial rearrFree_degLE_one wc2_ok.1 wc2_ok.2
  exact ⟨c', h1, h⟩

/-! ## C35 -/

/-- C35 is false for terms that are rearrangements of each other: `x^2*y + y^2*x <= 5` scaled by 1
becomes `2*x^2*y <= 5`. -/
theorem scaleBy_false :
    ¬ ∀ (c : SCon ℚ) (f : ℚ), c.Canon → f ≠ 0 → ∃ c', c.scaleBy f = .ok c' ∧
      ∀ ρ, c'.Sat ρ ↔ c.Sat ρ := by
  intro h
  obtain ⟨c', h1, h2⟩ := h ⟨.poly ⟨[wm2 1 0 1 2 1, wm2 1 1 0 2 1]⟩, .k 5, .le⟩ 1
    (SCon.okDeg_spec (n := 3) (by decide +kernel)).1 one_ne_zero
  have h3 : SCon.scaleBy ⟨.poly ⟨[wm2 1 0 1 2 1, wm2 1 1 0 2 1]⟩, .k 5, .le⟩ 1 =
      .ok ⟨.mono (wm2 2 0 1 2 1), .k (5 : ℚ), .le⟩ := by decide +kernel
  rw [h3, Except.ok.injEq] at h1
  subst h1
  exact absurd (h2 wρ) (by decide +kernel)

/-- C35 needs a non-zero factor: scaled by zero every constraint becomes `0 >= 0`. -/
theorem scaleBy_zero_false :
    ¬ ∀ (c : SCon ℚ) (f : ℚ), c.Canon → c.TermsIn (degLE 1) → ∃ c', c.scaleBy f = .ok c' ∧
      ∀ ρ, c'.Sat ρ ↔ c.Sat ρ := by
  intro h
  obtain ⟨c', h1, h2⟩ := h ⟨.var wx, .k 5, .ge⟩ 0 (SCon.okDeg_spec (n := 1) (by decide +kernel)).1
    (SCon.okDeg_spec (n := 1) (by decide +kernel)).2
  have h3 : SCon.scaleBy ⟨.var wx, .k 5, .ge⟩ 0 = .ok ⟨.k 0, .k (0 : ℚ), .ge⟩ := by decide +kernel
  rw [h3, Except.ok.injEq] at h1
  subst h1
  exact absurd (h2 wρ) (by decide +kernel)

/-- `x + 1 <= 3` scaled by `-2` becomes `-2x - 2 >= -6`. -/
example : wc1.scaleBy (-2) = .ok ⟨.poly ⟨[wm0 (-2), wm1 (-2) 0 1]⟩, .k (-6), .ge⟩ := by
  decide +kernel

example : ∃ c', wc2.scaleBy (-2) = .ok c' ∧ ∀ ρ, c'.Sat ρ ↔ wc2.Sat ρ := by
  obtain ⟨c', h1, _, _, _, _, _, _, _, h⟩ := scaleBy_partial rearrFree_degLE_one wc2_ok.1 wc2_ok.2 (-2)
  exact ⟨c', h1, h (by norm_num)⟩

/-! ## C36, C37 -/

/-- C36 is false when a constant is written twice: `1 + 2 + x <= 0` gives `x <= -1`. -/
theorem linearIneq_false :
    ¬ ∀ (c : SCon ℚ) (ws : List (Var ℚ)), c.Canon → c.sense = .le → c.TermsIn (degLE 1) → ws ≠ [] →
      (∀ w ∈ ws, w.OK) → (ws.map (·.id)).Nodup → c.CoveredBy ws →
      ∃ A b, c.linearIneq [ws] = .ok (A, b) ∧
        ∀ ρ, c.Sat ρ ↔ ((A.zip ws).map (fun aw => aw.1 * ρ aw.2.id)).sum ≤ b := by
  intro h
  have hok := SCon.okDeg_spec (n := 1) (c := ⟨.poly ⟨[wm0 1, wm0 2, wm1 1 0 1]⟩, .k 0, .le⟩)
    (by decide +kernel)
  obtain ⟨A, b, h1, h2⟩ := h _ [wx] hok.1 rfl hok.2 (by simp) (by simp [wv_ok]) (by simp) (by
    rintro v (hv | hv)
    · simp [Scalar.Mentions, wm0, wm1] at hv
      simp [hv]
    · exact hv.elim)
  have h3 : SCon.linearIneq ⟨.poly ⟨[wm0 1, wm0 2, wm1 1 0 1]⟩, .k 0, .le⟩ [[wx]] =
      .ok ([1], (-1 : ℚ)) := by decide +kernel
  rw [h3, Except.ok.injEq, Prod.mk.injEq] at h1
  obtain ⟨rfl, rfl⟩ := h1
  exact absurd (h2 (fun _ => -2)) (by decide +kernel)

/-- C36: an equality constraint is not rejected; it is treated as `<=`. -/
theorem linearIneq_equality :
    SCon.linearIneq ⟨.var wx, .k 1, .eq⟩ [[wx]] = .ok ([1], (1 : ℚ)) := by decide +kernel

/-- C37 is false when a constant is written twice: `1 + 2 + x = 0` gives `x = -1`. -/
theorem linearEq_false :
    ¬ ∀ (c : SCon ℚ) (ws : List (Var ℚ)), c.Canon → c.sense = .eq → c.TermsIn (degLE 1) → ws ≠ [] →
      (∀ w ∈ ws, w.OK) → (ws.map (·.id)).Nodup → c.CoveredBy ws →
      ∃ A b, c.linearEq [ws] = .ok (A, b) ∧
        ∀ ρ, c.Sat ρ ↔ ((A.zip ws).map (fun aw => aw.1 * ρ aw.2.id)).sum = b := by
  intro h
  have hok := SCon.okDeg_spec (n := 1) (c := ⟨.poly ⟨[wm0 1, wm0 2, wm1 1 0 1]⟩, .k 0, .eq⟩)
    (by decide +kernel)
  obtain ⟨A, b, h1, h2⟩ := h _ [wx] hok.1 rfl hok.2 (by simp) (by simp [wv_ok]) (by simp) (by
    rintro v (hv | hv)
    · simp [Scalar.Mentions, wm0, wm1] at hv
      simp [hv]
    · exact hv.elim)
  have h3 : SCon.linearEq ⟨.poly ⟨[wm0 1, wm0 2, wm1 1 0 1]⟩, .k 0, .eq⟩ [[wx]] =
      .ok ([1], (-1 : ℚ)) := by decide +kernel
  rw [h3, Except.ok.injEq, Prod.mk.injEq] at h1
  obtain ⟨rfl, rfl⟩ := h1
  exact absurd (h2 (fun _ => -1)) (by decide +kernel)

/-- `2x - 3y + 7 >= 4 - z` for `[y, x, z]` is `3y - 2x - z <= 3`. -/
example : wc2.linearIneq [[wy, wx, wz]] = .ok ([3, -2, -1], 3) := by decide +kernel

example : ∃ A b, wc2.linearIneq [[wy, wx, wz]] = .ok (A, b) ∧
    ∀ ρ, wc2.Sat ρ ↔ ((A.zip [wy, wx, wz]).map (fun aw => aw.1 * ρ aw.2.id)).sum ≤ b := by
  obtain ⟨A, b, h1, _, h⟩ := linearIneq_partial wc2_ok.1 (Or.inr rfl) wc2_low wc2_ok.2
    (ws := [wy, wx, wz]) (by simp) (by simp [wv_ok]) (by simp [wv]) (by
      rintro v (hv | hv) <;> simp [wc2, Scalar.Mentions, wm0, wm1] at hv
      · rcases hv with rfl | rfl <;> simp
      · simp [hv])
  exact ⟨A, b, h1, h⟩

/-- `2x - 3y + 7 = 4 - z` -/
example : SCon.linearEq { wc2 with sense := .eq } [[wy, wx, wz]] = .ok ([-3, 2, 1], -3) := by
  decide +kernel

/-! ## C41 -/

/-- C41 is false for terms that are rearrangements of each other: `x^3 <= 27` with `x := x + y`. -/
theorem substitute_con_false :
    ¬ ∀ (c : SCon ℚ) (s : Scalar ℚ) (v : Var ℚ), c.Canon → v.OK → s.Canon → SameEnv v c.lhs →
      SameEnv v c.rhs → ∃ c', c.substitute v s = .ok c' ∧
        ∀ ρ, c'.Sat ρ ↔ c.Sat (Function.update ρ v.id (s.value ρ)) := by
  intro h
  obtain ⟨c', h1, h2⟩ := h ⟨.mono (wm1 1 0 3), .k 27, .le⟩ wS wx
    (SCon.okDeg_spec (n := 3) (by decide +kernel)).1 (wv_ok 0) wS_canon (by
      intro w hw _
      simp only [Scalar.Mentions, wm1, List.mem_singleton] at hw
      rw [hw]) (by intro w hw; exact hw.elim)
  have hr : SCon.substitute ⟨.mono (wm1 1 0 3), .k 27, .le⟩ wx wS =
      .ok ⟨.poly ⟨[wm1 1 0 3, wm2 2 1 0 1 2, wm2 4 1 0 2 1, wm1 1 1 3]⟩, .k (27 : ℚ), .le⟩ := by
    decide +kernel
  rw [hr, Except.ok.injEq] at h1
  subst h1
  have := h2 wρ
  simp only [Scalar.value_eq_evalAt] at this
  exact absurd this (by decide +kernel)

/-- `x*y <= x` with `x := y - 1` -/
example : SCon.substitute ⟨wP, .var wx, .le⟩ wx (.poly ⟨[wm1 1 1 1, wm0 (-1)]⟩) =
    .ok ⟨.poly ⟨[wm1 (-1) 1 1, wm1 1 1 2]⟩, .poly ⟨[wm1 1 1 1, wm0 (-1)]⟩, .le⟩ := by decide +kernel

end Verif
