import Verif.Lemmas.RoundF64

/-!
# The sharp bound of one rounding

The relative error of one rounding is at most `1 / (2^53 + 1)`, which is less than the distance to the next float.
So a float that is within one rounding of a float equals it.
-/

namespace Verif

theorem roundEven_best (q : ℚ) (n : ℤ) : |(roundEven q : ℚ) - q| ≤ |(n : ℚ) - q| := by
  have h1 := Int.floor_le q
  have h2 := Int.lt_floor_add_one q
  have hn : (n : ℚ) ≤ ⌊q⌋ ∨ (⌊q⌋ : ℚ) + 1 ≤ n := by
    rcases le_or_gt n ⌊q⌋ with h | h
    · exact Or.inl (by exact_mod_cast h)
    · exact Or.inr (by exact_mod_cast h)
  have h3 : min (q - ⌊q⌋) (⌊q⌋ + 1 - q) ≤ |(n : ℚ) - q| := by
    rcases hn with h | h
    · exact (min_le_left _ _).trans (by rw [abs_sub_comm]; exact le_trans (by linarith) (le_abs_self _))
    · exact (min_le_right _ _).trans (le_trans (by linarith) (le_abs_self _))
  refine le_trans ?_ h3
  unfold roundEven
  rw [le_min_iff]
  split
  · rw [abs_sub_comm, abs_of_nonneg (by linarith)]
    constructor <;> linarith
  · split
    · push_cast
      rw [abs_of_nonneg (by linarith)]
      constructor <;> linarith
    · have : q - ⌊q⌋ = 1 / 2 := le_antisymm (by linarith) (by linarith)
      split
      · rw [abs_sub_comm, abs_of_nonneg (by linarith)]
        constructor <;> linarith
      · push_cast
        rw [abs_of_nonneg (by linarith)]
        constructor <;> linarith

/-- The relative error of one rounding. -/
theorem round53_sharp {q : ℚ} (h : F64.Normal q) : |round53 q - q| ≤ 1 / (2 ^ 53 + 1) * |q| := by
  have h2 : (2 : ℚ) ≠ 0 := by norm_num
  have key : q ≠ 0 → lastBit q = Int.log 2 |q| - 52 → |round53 q - q| ≤ 1 / (2 ^ 53 + 1) * |q| := by
    intro h0 hL
    have hp : (0 : ℚ) < 2 ^ lastBit q := zpow_pos (by norm_num) _
    have hlow : (2 : ℚ) ^ 52 * 2 ^ lastBit q ≤ |q| := by
      have := Int.zpow_log_le_self (b := 2) (by norm_num) (abs_pos.mpr h0)
      have e : (2 : ℚ) ^ 52 * 2 ^ lastBit q = 2 ^ Int.log 2 |q| := by
        rw [← zpow_natCast, ← zpow_add₀ h2, hL]
        congr 1
        push_cast
        omega
      rw [e]
      exact_mod_cast this
    set s := q / 2 ^ lastBit q with hs
    have hq : q = s * 2 ^ lastBit q := (div_mul_cancel₀ _ hp.ne').symm
    have hqa : |q| = |s| * 2 ^ lastBit q := by rw [hq, abs_mul, abs_of_pos hp, ← hq]
    have hs52 : (2 : ℚ) ^ 52 ≤ |s| := by
      rw [hqa] at hlow
      exact le_of_mul_le_mul_right hlow hp
    have e1 : |round53 q - q| = |(roundEven s : ℚ) - s| * 2 ^ lastBit q := by
      have : round53 q - q = ((roundEven s : ℚ) - s) * 2 ^ lastBit q := by
        rw [sub_mul, ← hq]
        rfl
      rw [this, abs_mul, abs_of_pos hp]
    have e2 := roundEven_err s
    have e3 : |(roundEven s : ℚ) - s| ≤ |s| - 2 ^ 52 := by
      rcases le_or_gt 0 s with h | h
      · have := roundEven_best s (2 ^ 52)
        rw [abs_of_nonneg h] at hs52 ⊢
        refine this.trans ?_
        push_cast
        rw [abs_sub_comm, abs_of_nonneg (by linarith)]
        norm_num
      · have := roundEven_best s (-2 ^ 52)
        rw [abs_of_neg h] at hs52 ⊢
        refine this.trans ?_
        push_cast
        rw [abs_of_nonneg (by linarith)]
        linarith
    rw [e1, hqa, ← mul_assoc]
    refine mul_le_mul_of_nonneg_right ?_ hp.le
    rw [one_div, inv_mul_eq_div, le_div_iff₀ (by norm_num)]
    rcases le_or_gt (2 ^ 52 + 1 / 2) |s| with h | h
    · linarith
    · linarith
  rcases eq_or_ne q 0 with rfl | h0
  · have : round53 (0 : ℚ) = 0 := round53_of_int (k := 0) (by simp)
    simp [this]
  by_cases hL : -1074 ≤ Int.log 2 |q| - 52
  · exact key h0 (max_eq_left hL)
  · rcases h with h | ⟨k, hk⟩
    · exfalso
      have h3 := Int.lt_zpow_succ_log_self (b := 2) (by norm_num) |q|
      have h4 : ((2 : ℕ) : ℚ) ^ (Int.log 2 |q| + 1) ≤ 2 ^ (-1022 : ℤ) := by
        exact_mod_cast zpow_le_zpow_right₀ (by norm_num : (1 : ℚ) ≤ 2) (by omega)
      have h5 : (2 : ℚ) ^ (-1022 : ℤ) = 1 / 2 ^ 1022 := by
        rw [zpow_neg, one_div]; norm_cast
      rw [h5] at h4
      exact absurd (h3.trans_le h4) (not_lt.mpr h)
    · have hl : lastBit q = -1074 := max_eq_right (by omega)
      have : round53 q = q := by
        apply round53_of_int (k := k)
        rw [hl]
        conv_lhs => rw [hk]
        rw [zpow_neg, div_eq_mul_inv]
        norm_cast
      rw [this]
      simp only [sub_self, abs_zero]
      positivity

private theorem able_last {q : ℚ} (h : F64.Able q) : ∃ k : ℤ, |k| ≤ 2 ^ 53 ∧ q = k * 2 ^ lastBit q := by
  unfold F64.Able F64.ofRat at h
  split at h
  · injection h with h
    obtain ⟨k, h1, h2⟩ := round53_form q
    exact ⟨k, h1, h.symm.trans h2⟩
  · cases h

/-- Floats are not closer than that. -/
theorem F64.able_gap {p q : ℚ} (hp : F64.Able p) (hq : F64.Able q) (h : |p - q| < 1 / 2 ^ 53 * |q|) : p = q := by
  have h2 : (2 : ℚ) ≠ 0 := by norm_num
  obtain ⟨a, ha, ea⟩ := able_last hp
  obtain ⟨b, hb, eb⟩ := able_last hq
  have hL : (0 : ℚ) < 2 ^ lastBit q := zpow_pos (by norm_num) _
  have hq0 : q ≠ 0 := by
    rintro rfl
    rw [abs_zero, mul_zero] at h
    exact absurd h (not_lt.mpr (abs_nonneg _))
  rcases le_or_gt (lastBit q) (lastBit p) with hc | hc
  · obtain ⟨n, hn⟩ := Int.eq_ofNat_of_zero_le (sub_nonneg.mpr hc)
    have e1 : p = ((a * 2 ^ n : ℤ) : ℚ) * 2 ^ lastBit q := by
      conv_lhs => rw [ea, show lastBit p = (n : ℤ) + lastBit q by omega, zpow_add₀ h2, zpow_natCast]
      push_cast
      ring
    generalize a * 2 ^ n = c at e1
    have e2 : |p - q| = |((c - b : ℤ) : ℚ)| * 2 ^ lastBit q := by
      have : p - q = ((c - b : ℤ) : ℚ) * 2 ^ lastBit q := by
        push_cast
        rw [sub_mul, ← e1, ← eb]
      rw [this, abs_mul, abs_of_pos hL]
    have e3 : |q| ≤ 2 ^ 53 * 2 ^ lastBit q := by
      have : |q| = |(b : ℚ)| * 2 ^ lastBit q := by
        conv_lhs => rw [eb, abs_mul, abs_of_pos hL]
      rw [this]
      exact mul_le_mul_of_nonneg_right (by exact_mod_cast hb) hL.le
    have e4 : |((c - b : ℤ) : ℚ)| < 1 := by
      rw [e2] at h
      refine lt_of_mul_lt_mul_right (h.trans_le ?_) hL.le
      calc 1 / 2 ^ 53 * |q| ≤ 1 / 2 ^ 53 * (2 ^ 53 * 2 ^ lastBit q) :=
            mul_le_mul_of_nonneg_left e3 (by norm_num)
        _ = 1 * 2 ^ lastBit q := by ring
    have e5 : c - b = 0 := by
      rw [← Int.abs_lt_one_iff]
      exact_mod_cast e4
    rw [e1, show c = b by omega, ← eb]
  · exfalso
    have hLq : lastBit q = Int.log 2 |q| - 52 := by
      have := lastBit_ge p
      unfold lastBit at hc this ⊢
      omega
    have hLp : Int.log 2 |p| - 52 ≤ lastBit p := le_max_left _ _
    have hlow : (2 : ℚ) ^ 52 * 2 ^ lastBit q ≤ |q| := by
      have := Int.zpow_log_le_self (b := 2) (by norm_num) (abs_pos.mpr hq0)
      have e : (2 : ℚ) ^ 52 * 2 ^ lastBit q = 2 ^ Int.log 2 |q| := by
        rw [← zpow_natCast, ← zpow_add₀ h2, hLq]
        congr 1
        push_cast
        omega
      rw [e]
      exact_mod_cast this
    -- half of the last bit of `q`
    obtain ⟨t, ht⟩ : ∃ t : ℚ, t = 2 ^ (lastBit q - 1) := ⟨_, rfl⟩
    have ht0 : 0 < t := by rw [ht]; exact zpow_pos (by norm_num) _
    have e2 : (2 : ℚ) ^ lastBit q = 2 * t := by
      rw [ht, show lastBit q = 1 + (lastBit q - 1) by omega, zpow_add₀ h2, zpow_one]
      congr 2
      omega
    have hup : |p| ≤ (2 ^ 53 - 1) * t := by
      have h3 : |p| < 2 ^ 53 * 2 ^ lastBit p := by
        have := Int.lt_zpow_succ_log_self (b := 2) (by norm_num) |p|
        refine lt_of_lt_of_le (b := (2 : ℚ) ^ (Int.log 2 |p| + 1)) (by exact_mod_cast this) ?_
        rw [← zpow_natCast, ← zpow_add₀ h2]
        exact zpow_le_zpow_right₀ (by norm_num) (by push_cast; omega)
      rcases eq_or_lt_of_le (show lastBit p ≤ lastBit q - 1 by omega) with h4 | h4
      · rw [h4, ← ht] at h3 ea
        have h5 : |p| = |(a : ℚ)| * t := by rw [ea, abs_mul, abs_of_pos ht0]
        rw [h5] at h3 ⊢
        have h6 : |(a : ℚ)| < 2 ^ 53 := lt_of_mul_lt_mul_right h3 ht0.le
        have h7 : |a| < 2 ^ 53 := by exact_mod_cast h6
        have h8 : |a| ≤ 2 ^ 53 - 1 := by omega
        exact mul_le_mul_of_nonneg_right (by exact_mod_cast h8) ht0.le
      · have h5 : (2 : ℚ) ^ lastBit p ≤ t / 2 := by
          have e3 : t / 2 = 2 ^ (lastBit q - 2) := by
            rw [ht, show lastBit q - 1 = 1 + (lastBit q - 2) by omega, zpow_add₀ h2, zpow_one]
            ring
          rw [e3]
          exact zpow_le_zpow_right₀ (by norm_num) (by omega)
        refine h3.le.trans ((mul_le_mul_of_nonneg_left h5 (by norm_num)).trans ?_)
        nlinarith
    have h3 := abs_sub_abs_le_abs_sub q p
    rw [abs_sub_comm q p] at h3
    rw [e2] at hlow
    have h4 : |q| - 1 / 2 ^ 53 * |q| < (2 ^ 53 - 1) * t := by linarith
    have h5 : (1 - 1 / 2 ^ 53) * (2 ^ 52 * (2 * t)) ≤ (1 - 1 / 2 ^ 53) * |q| :=
      mul_le_mul_of_nonneg_left hlow (by norm_num)
    have h6 : (1 - 1 / 2 ^ 53) * (2 ^ 52 * (2 * t)) = (2 ^ 53 - 1) * t := by ring
    linarith

/-- `float64` with the sharp bound. -/
def F64.sharp : RoundModel F64 ℚ where
  val := F64.rounding.val
  Fin := F64.rounding.Fin
  u := 1 / (2 ^ 53 + 1)
  Small := F64.rounding.Small
  Normal := F64.rounding.Normal
  u_nonneg := by positivity
  small_mono := F64.rounding.small_mono
  zero := F64.rounding.zero
  one := F64.rounding.one
  two := F64.rounding.two
  neg_one := F64.rounding.neg_one
  add := by
    rintro _ _ ⟨p, rfl, hp⟩ ⟨q, rfl, hq⟩ hs
    have hn : F64.Normal (p + q) := Or.inr ((dyadics 1074).add_mem (F64.able_grid hp) (F64.able_grid hq))
    obtain ⟨h1, h2, -⟩ := F64.ofRat_round hs hn
    have e : (GoNum.add (F64.fin p) (F64.fin q) : F64) = .fin (round53 (p + q)) := h1
    rw [e]
    exact ⟨⟨_, rfl, h2⟩, round53_sharp hn⟩
  zero_add := F64.rounding.zero_add
  mul := by
    rintro _ _ ⟨p, rfl, hp⟩ ⟨q, rfl, hq⟩ hs hn
    obtain ⟨h1, h2, -⟩ := F64.ofRat_round hs hn
    have e : (GoNum.mul (F64.fin p) (F64.fin q) : F64) = .fin (round53 (p * q)) := h1
    rw [e]
    exact ⟨⟨_, rfl, h2⟩, round53_sharp hn⟩
  mul_neg := F64.rounding.mul_neg
  neg_mul := F64.rounding.neg_mul
  mul_one := F64.rounding.mul_one
  feq := F64.rounding.feq

end Verif
