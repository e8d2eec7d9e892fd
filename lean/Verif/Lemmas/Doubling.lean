import Verif.Props.CoefsMul
import Verif.Props.Format

/-!
# Products with two in `float64`

They are exact unless they overflow, also for subnormal numbers, so they may be exchanged with other products.
-/

namespace Verif

private theorem log_double {x : ℚ} (h : x ≠ 0) : Int.log 2 |2 * x| = Int.log 2 |x| + 1 := by
  have hx : 0 < |x| := abs_pos.mpr h
  have hx2 : 0 < |2 * x| := abs_pos.mpr (by simpa using h)
  have e : |2 * x| = 2 * |x| := by rw [abs_mul]; norm_num
  have h1 := Int.zpow_log_le_self (b := 2) (by norm_num) hx
  have h2 := Int.lt_zpow_succ_log_self (b := 2) (by norm_num) |x|
  push_cast at h1 h2
  apply le_antisymm
  · rw [← Int.lt_add_one_iff, ← Int.lt_zpow_iff_log_lt (by norm_num) hx2, e]
    push_cast
    rw [zpow_add_one₀ (by norm_num)]
    linarith
  · rw [← Int.zpow_le_iff_le_log (by norm_num) hx2, e]
    push_cast
    rw [zpow_add_one₀ (by norm_num)]
    linarith

/-- Multiples of the smallest `float64`. -/
def F64.Grid (x : ℚ) : Prop := ∃ K : ℤ, x = K * 2 ^ (-1074 : ℤ)

theorem F64.grid_round53 (q : ℚ) : F64.Grid (round53 q) := by
  obtain ⟨k, -, h⟩ := round53_form q
  have h1 : -1074 ≤ lastBit q := le_max_right _ _
  refine ⟨k * 2 ^ (lastBit q + 1074).toNat, ?_⟩
  rw [h]
  push_cast
  rw [mul_assoc, ← zpow_natCast, Int.toNat_of_nonneg (by omega), ← zpow_add₀ (by norm_num)]
  congr 2
  ring

theorem F64.Grid.mul_nat {x : ℚ} (h : F64.Grid x) (n : ℕ) : F64.Grid (x * n) := by
  obtain ⟨K, rfl⟩ := h
  exact ⟨K * n, by push_cast; ring⟩

theorem round53_idem (q : ℚ) : round53 (round53 q) = round53 q := by
  obtain ⟨k, h1, h2⟩ := round53_form q
  rw [h2]
  exact round53_bits h1 (le_max_right _ _)

theorem round53_double {x : ℚ} (h : F64.Grid x) : round53 (2 * x) = 2 * round53 x := by
  rcases eq_or_ne x 0 with rfl | h0
  · have := round53_bits (k := 0) (e := 0) (by norm_num) (by norm_num)
    simp only [Int.cast_zero, zero_mul] at this
    rw [mul_zero, this, mul_zero]
  · rcases le_or_gt (-1022) (Int.log 2 |x|) with hl | hl
    · have e1 : lastBit (2 * x) = lastBit x + 1 := by
        unfold lastBit
        rw [log_double h0]
        omega
      unfold round53
      rw [e1, zpow_add_one₀ (by norm_num)]
      have h2 : (2 : ℚ) ^ lastBit x ≠ 0 := (zpow_pos (by norm_num) _).ne'
      rw [show 2 * x / (2 ^ lastBit x * 2) = x / 2 ^ lastBit x by field_simp]
      ring
    · rw [← Int.lt_zpow_iff_log_lt (by norm_num) (abs_pos.mpr h0)] at hl
      obtain ⟨K, rfl⟩ := h
      have hp : (0 : ℚ) < 2 ^ (-1074 : ℤ) := zpow_pos (by norm_num) _
      have hK : |K| < 2 ^ 52 := by
        push_cast at hl
        rw [abs_mul, abs_of_pos hp, show (-1022 : ℤ) = 52 + -1074 from rfl, zpow_add₀ (by norm_num)] at hl
        have := lt_of_mul_lt_mul_right hl hp.le
        exact_mod_cast this
      have e1 := round53_bits (k := K) (e := -1074) (by omega) le_rfl
      have e2 := round53_bits (k := 2 * K) (e := -1074) (by rw [abs_mul]; norm_num; omega) le_rfl
      push_cast at e2
      rw [e1, ← mul_assoc, e2]

theorem F64.Able.round {q : ℚ} (h : F64.Able q) : round53 q = q ∧ |q| < 2 ^ 1024 := by
  unfold F64.Able F64.ofRat at h
  split at h
  · rename_i h1
    have : round53 q = q := by simpa using h
    rw [this] at h1
    exact ⟨this, h1⟩
  · cases h

private theorem abs_round53 (q : ℚ) : |round53 q| = round53 |q| := by
  rcases le_total 0 q with h | h
  · rw [abs_of_nonneg h, abs_of_nonneg (F64Z.round53_nonneg h)]
  · rw [abs_of_nonpos h, abs_of_nonpos (F64Z.round53_nonpos h), F64Z.round53_neg]

private theorem neg_iff {q : ℚ} (h : round53 q ≠ 0) : round53 q < 0 ↔ q < 0 := by
  constructor
  · intro h1
    by_contra h2
    exact absurd (F64Z.round53_nonneg (not_lt.mp h2)) (not_le.mpr h1)
  · intro h1
    exact lt_of_le_of_ne (F64Z.round53_nonpos h1.le) h

private theorem inf_mul (a : Bool) {n : ℚ} (h : 0 < n) : GoNum.mul (F64.inf a) (F64.fin n) = F64.inf a := by
  show (if n = 0 then F64.nan else F64.inf (a != decide (n < 0))) = _
  rw [if_neg h.ne', decide_eq_false (not_lt.mpr h.le)]
  cases a <;> rfl

/-- Rounding first does not change the double. -/
theorem F64.ofRat_double {x : ℚ} (h : F64.Grid x) :
    GoNum.mul (F64.ofRat x) (F64.fin 2) = F64.ofRat (2 * x) := by
  have e2 : F64.ofRat (2 * x) = if |2 * round53 x| < 2 ^ 1024 then F64.fin (2 * round53 x)
      else F64.inf (decide (x < 0)) := by
    unfold F64.ofRat
    rw [round53_double h]
    have : decide (2 * x < 0) = decide (x < 0) := by
      rw [decide_eq_decide]
      constructor <;> intro h <;> linarith
    rw [this]
  rw [e2]
  by_cases h1 : |round53 x| < 2 ^ 1024
  · have e1 : F64.ofRat x = .fin (round53 x) := if_pos h1
    rw [e1]
    show F64.ofRat (round53 x * 2) = _
    unfold F64.ofRat
    rw [mul_comm, round53_double (F64.grid_round53 x), round53_idem]
    split
    · rfl
    · rename_i h3
      have h0 : round53 x ≠ 0 := by
        intro h0
        rw [h0] at h3
        norm_num at h3
      congr 1
      rw [decide_eq_decide, ← neg_iff h0]
      constructor <;> intro h <;> linarith
  · have e1 : F64.ofRat x = .inf (decide (x < 0)) := if_neg h1
    rw [e1, inf_mul _ two_pos, if_neg]
    rw [abs_mul, abs_of_pos (by norm_num : (0 : ℚ) < 2)]
    have := abs_nonneg (round53 x)
    intro h2
    exact h1 (lt_of_le_of_lt (le_mul_of_one_le_left this (by norm_num)) h2)

/-- A product with two may be exchanged with a product with a positive whole number. -/
theorem F64.mul_two_swap {c : F64} (hc : c.Value) {n : ℕ} (hn : 0 < n) :
    GoNum.mul (GoNum.mul c (F64.fin 2)) (F64.fin n) = GoNum.mul (GoNum.mul c (F64.fin n)) (F64.fin 2) := by
  have hn' : (0 : ℚ) < n := by exact_mod_cast hn
  cases c with
  | nan => rfl
  | inf a => rw [inf_mul _ two_pos, inf_mul _ hn', inf_mul _ two_pos]
  | fin q =>
    have hq : F64.Able q := hc
    obtain ⟨h1, h2⟩ := hq.round
    have hg : F64.Grid q := h1 ▸ F64.grid_round53 q
    show GoNum.mul (F64.ofRat (q * 2)) _ = GoNum.mul (F64.ofRat (q * n)) _
    rw [F64.ofRat_double (hg.mul_nat n)]
    have e2 : round53 (q * 2) = q * 2 := by rw [mul_comm, round53_double hg, h1]
    by_cases h3 : |q * 2| < 2 ^ 1024
    · have e1 : F64.ofRat (q * 2) = .fin (q * 2) := by
        unfold F64.ofRat
        rw [e2, if_pos h3]
      rw [e1]
      show F64.ofRat (q * 2 * n) = _
      congr 1
      ring
    · have e1 : F64.ofRat (q * 2) = .inf (decide (q < 0)) := by
        unfold F64.ofRat
        rw [e2, if_neg h3]
        congr 1
        rw [decide_eq_decide]
        constructor <;> intro h <;> linarith
      have h0 : q ≠ 0 := by
        rintro rfl
        norm_num at h3
      rw [e1, inf_mul _ hn']
      have h4 : |q| ≤ round53 |q * n| := by
        have h5 : round53 |q| = |q| := by rw [← abs_round53, h1]
        rw [← h5]
        refine round53_mono (abs_pos.mpr h0) ?_
        rw [abs_mul, abs_of_pos hn']
        have h6 : (1 : ℚ) ≤ n := by exact_mod_cast hn
        nlinarith [abs_nonneg q]
      unfold F64.ofRat
      rw [round53_double (hg.mul_nat n), if_neg]
      · congr 1
        rw [decide_eq_decide]
        constructor
        · intro h
          have := mul_neg_of_neg_of_pos h hn'
          linarith
        · intro h
          by_contra h7
          have := mul_nonneg (not_lt.mp h7) hn'.le
          linarith
      · rw [abs_mul, abs_round53, abs_of_pos (by norm_num : (0 : ℚ) < 2)]
        rw [abs_mul, abs_of_pos (by norm_num : (0 : ℚ) < 2)] at h3
        intro h7
        exact h3 (by linarith)

/-- A product with four is two products with two. -/
theorem F64.mul_four {c : F64} (hc : c.Value) :
    GoNum.mul c (F64.fin 4) = GoNum.mul (GoNum.mul c (F64.fin 2)) (F64.fin 2) := by
  cases c with
  | nan => rfl
  | inf a => rw [inf_mul _ two_pos, inf_mul _ two_pos, inf_mul _ four_pos]
  | fin q =>
    have hq : F64.Able q := hc
    have hg : F64.Grid q := hq.round.1 ▸ F64.grid_round53 q
    show F64.ofRat (q * 4) = GoNum.mul (F64.ofRat (q * 2)) _
    rw [F64.ofRat_double (by exact_mod_cast hg.mul_nat 2)]
    congr 1
    ring

end Verif
