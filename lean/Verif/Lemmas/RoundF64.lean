import Verif.Lemmas.Round
import Verif.Lemmas.Binary64

/-!
# The rounding errors of `float64`

An operation on finite floats returns the exact result up to the factor `1 ± 2^-53`, as long as the result
is at most `2^1023` and a product is not below `2^-1022` (or is a multiple of `2^-1074`, the least
positive float).
-/

namespace Verif

theorem roundEven_err (q : ℚ) : |(roundEven q : ℚ) - q| ≤ 1 / 2 := by
  have h1 := Int.floor_le q
  have h2 := Int.lt_floor_add_one q
  unfold roundEven
  split
  · rw [abs_le]; constructor <;> linarith
  · split
    · push_cast; rw [abs_le]; constructor <;> linarith
    · split
      · rw [abs_le]; constructor <;> linarith
      · push_cast; rw [abs_le]; constructor <;> linarith

theorem lastBit_ge (q : ℚ) : -1074 ≤ lastBit q := le_max_right _ _

theorem round53_err (q : ℚ) : |round53 q - q| ≤ 2 ^ lastBit q / 2 := by
  have h2 : (0 : ℚ) < 2 ^ lastBit q := zpow_pos (by norm_num) _
  have h := roundEven_err (q / 2 ^ lastBit q)
  have e : round53 q - q = ((roundEven (q / 2 ^ lastBit q) : ℚ) - q / 2 ^ lastBit q) * 2 ^ lastBit q := by
    unfold round53
    rw [sub_mul, div_mul_cancel₀ _ h2.ne']
  rw [e, abs_mul, abs_of_pos h2]
  calc _ ≤ 1 / 2 * (2 : ℚ) ^ lastBit q := mul_le_mul_of_nonneg_right h h2.le
    _ = _ := by ring

/-- A rounded number has at most 53 bits. -/
theorem round53_form (q : ℚ) : ∃ k : ℤ, |k| ≤ 2 ^ 53 ∧ round53 q = k * 2 ^ lastBit q := by
  refine ⟨roundEven (q / 2 ^ lastBit q), ?_, rfl⟩
  have h2 : (0 : ℚ) < 2 ^ lastBit q := zpow_pos (by norm_num) _
  have hq : |q / 2 ^ lastBit q| ≤ 2 ^ 53 := by
    rw [abs_div, abs_of_pos h2, div_le_iff₀ h2]
    rcases eq_or_ne q 0 with rfl | h0
    · rw [abs_zero]; exact mul_nonneg (by norm_num) h2.le
    · have h3 := Int.lt_zpow_succ_log_self (b := 2) (by norm_num) |q|
      have h4 : ((2 : ℕ) : ℚ) ^ (Int.log 2 |q| + 1) ≤ 2 ^ (lastBit q + 53) := by
        have : Int.log 2 |q| - 52 ≤ lastBit q := le_max_left _ _
        exact_mod_cast zpow_le_zpow_right₀ (by norm_num : (1 : ℚ) ≤ 2) (by omega)
      have h5 : (2 : ℚ) ^ (lastBit q + 53) = 2 ^ 53 * 2 ^ lastBit q := by
        rw [zpow_add₀ (by norm_num), mul_comm]; norm_num
      rw [← h5]
      exact (h3.trans_le h4).le
  have h := roundEven_err (q / 2 ^ lastBit q)
  have h3 : |(roundEven (q / 2 ^ lastBit q) : ℚ)| < 2 ^ 53 + 1 := by
    have := abs_add_le ((roundEven (q / 2 ^ lastBit q) : ℚ) - q / 2 ^ lastBit q) (q / 2 ^ lastBit q)
    rw [sub_add_cancel] at this
    linarith
  have h4 : |roundEven (q / 2 ^ lastBit q)| < 2 ^ 53 + 1 := by exact_mod_cast h3
  omega

/-- A number with at most 53 bits is not changed by rounding. -/
theorem round53_bits {k e : ℤ} (hk : |k| ≤ 2 ^ 53) (he : -1074 ≤ e) :
    round53 ((k : ℚ) * 2 ^ e) = (k : ℚ) * 2 ^ e := by
  have h2 : (2 : ℚ) ≠ 0 := by norm_num
  rcases eq_or_ne k 0 with rfl | hk0
  · apply round53_of_int (k := 0); simp
  obtain ⟨q, hq⟩ : ∃ q : ℚ, q = (k : ℚ) * 2 ^ e := ⟨_, rfl⟩
  rw [← hq]
  have hq0 : q ≠ 0 := by
    rw [hq]
    exact mul_ne_zero (by exact_mod_cast hk0) (zpow_ne_zero _ h2)
  by_cases hc : lastBit q ≤ e
  · obtain ⟨n, hn⟩ := Int.eq_ofNat_of_zero_le (sub_nonneg.mpr hc)
    apply round53_of_int (k := k * 2 ^ n)
    have e' : e = (n : ℤ) + lastBit q := by omega
    conv_lhs => rw [hq, e', zpow_add₀ h2, zpow_natCast]
    push_cast
    ring
  · have hL : lastBit q = Int.log 2 |q| - 52 := by
      unfold lastBit at hc ⊢
      rcases max_choice (Int.log 2 |q| - 52) (-1074) with h | h
      · exact h
      · rw [h] at hc; omega
    have hlow : (2 : ℚ) ^ (lastBit q + 52) ≤ |q| := by
      have := Int.zpow_log_le_self (b := 2) (by norm_num) (abs_pos.mpr hq0)
      have e' : lastBit q + 52 = Int.log 2 |q| := by omega
      rw [e']; exact_mod_cast this
    have hpos : (0 : ℚ) < 2 ^ e := zpow_pos (by norm_num) _
    have habs : |q| = |(k : ℚ)| * 2 ^ e := by
      rw [hq, abs_mul, abs_of_pos hpos]
    obtain ⟨n, hn⟩ := Int.eq_ofNat_of_zero_le (a := lastBit q - e - 1) (by omega)
    have hk' : (2 : ℚ) ^ (n + 53) ≤ |(k : ℚ)| := by
      rw [habs] at hlow
      have e' : (2 : ℚ) ^ (lastBit q + 52) = 2 ^ (n + 53) * 2 ^ e := by
        rw [← zpow_natCast, ← zpow_add₀ h2]
        congr 1
        push_cast
        omega
      rw [e'] at hlow
      exact le_of_mul_le_mul_right hlow hpos
    have hkZ : (2 : ℤ) ^ (n + 53) ≤ |k| := by exact_mod_cast hk'
    have hn0 : n = 0 := by
      by_contra hne
      have h1 : (2 : ℤ) ^ 54 ≤ 2 ^ (n + 53) := pow_le_pow_right₀ (by norm_num) (by omega)
      have : (2 : ℤ) ^ 54 ≤ 2 ^ 53 := h1.trans (hkZ.trans hk)
      norm_num at this
    subst hn0
    have hk53 : |k| = 2 ^ 53 := le_antisymm hk (by simpa using hkZ)
    have e' : lastBit q = 1 + e := by omega
    have ex : ∃ s : ℤ, k = 2 * s := by
      rcases abs_eq (by norm_num : (0 : ℤ) ≤ 2 ^ 53) |>.mp hk53 with h | h
      · exact ⟨2 ^ 52, by rw [h]; norm_num⟩
      · exact ⟨-2 ^ 52, by rw [h]; norm_num⟩
    obtain ⟨s, hs⟩ := ex
    apply round53_of_int (k := s)
    conv_lhs => rw [hq, hs]
    rw [e', zpow_add₀ h2, zpow_one]
    push_cast
    ring

/-- Not below the normal range, or a multiple of the least positive float. -/
def F64.Normal (q : ℚ) : Prop := (1 : ℚ) / 2 ^ 1022 ≤ |q| ∨ ∃ k : ℤ, q = k / 2 ^ 1074

theorem round53_rel {q : ℚ} (h : F64.Normal q) : |round53 q - q| ≤ 1 / 2 ^ 53 * |q| := by
  have h2 : (2 : ℚ) ≠ 0 := by norm_num
  have key : q ≠ 0 → lastBit q = Int.log 2 |q| - 52 → |round53 q - q| ≤ 1 / 2 ^ 53 * |q| := by
    intro h0 hL
    refine (round53_err q).trans ?_
    have hlow := Int.zpow_log_le_self (b := 2) (by norm_num) (abs_pos.mpr h0)
    have e : (2 : ℚ) ^ lastBit q / 2 = 1 / 2 ^ 53 * 2 ^ Int.log 2 |q| := by
      rw [hL, sub_eq_add_neg, zpow_add₀ h2]
      have : (2 : ℚ) ^ (-52 : ℤ) = 1 / 2 ^ 52 := by norm_num
      rw [this]
      ring
    rw [e]
    exact mul_le_mul_of_nonneg_left (by exact_mod_cast hlow) (by positivity)
  rcases eq_or_ne q 0 with rfl | h0
  · have : round53 (0 : ℚ) = 0 := round53_of_int (k := 0) (by simp)
    simp [this]
  by_cases hL : -1074 ≤ Int.log 2 |q| - 52
  · exact key h0 (max_eq_left hL)
  · rcases h with h | ⟨k, hk⟩
    · exfalso
      have h3 := Int.lt_zpow_succ_log_self (b := 2) (by norm_num) |q|
      have h4 : ((2 : ℕ) : ℚ) ^ (Int.log 2 |q| + 1) ≤ 2 ^ (-1022 : ℤ) := by
        exact_mod_cast zpow_le_zpow_right₀ (by norm_num : (1 : ℚ) ≤ 2) (by omega)
      have h5 : (2 : ℚ) ^ (-1022 : ℤ) = 1 / 2 ^ 1022 := by
        rw [zpow_neg, one_div]; norm_cast
      rw [h5] at h4
      exact absurd (h3.trans_le h4) (not_lt.mpr h)
    · have hl : lastBit q = -1074 := max_eq_right (by omega)
      have : round53 q = q := by
        apply round53_of_int (k := k)
        rw [hl]
        conv_lhs => rw [hk]
        rw [zpow_neg, div_eq_mul_inv]
        norm_cast
      rw [this]
      simp only [sub_self, abs_zero]
      positivity

theorem F64.able_form {q : ℚ} (h : F64.Able q) : |q| < 2 ^ 1024 ∧ ∃ k e : ℤ, |k| ≤ 2 ^ 53 ∧ -1074 ≤ e ∧ q = k * 2 ^ e := by
  unfold F64.Able F64.ofRat at h
  split at h
  · rename_i hs
    injection h with h
    rw [h] at hs
    obtain ⟨k, h1, h2⟩ := round53_form q
    exact ⟨hs, k, lastBit q, h1, lastBit_ge q, h.symm.trans h2⟩
  · cases h

theorem F64.able_of_form {q : ℚ} {k e : ℤ} (hs : |q| < 2 ^ 1024) (hk : |k| ≤ 2 ^ 53) (he : -1074 ≤ e)
    (h : q = k * 2 ^ e) : F64.Able q := by
  unfold F64.Able F64.ofRat
  have : round53 q = q := by rw [h]; exact round53_bits hk he
  rw [this, if_pos hs]

theorem F64.able_grid {q : ℚ} (h : F64.Able q) : q ∈ dyadics 1074 := by
  obtain ⟨-, k, e, -, he, rfl⟩ := F64.able_form h
  obtain ⟨n, hn⟩ := Int.eq_ofNat_of_zero_le (a := e + 1074) (by omega)
  refine ⟨k * 2 ^ n, ?_⟩
  have : e = (n : ℤ) + -1074 := by omega
  rw [this, zpow_add₀ (by norm_num : (2 : ℚ) ≠ 0), zpow_natCast, zpow_neg]
  push_cast
  rw [div_eq_mul_inv, mul_assoc]
  norm_cast

/-- The rounded result. -/
theorem F64.ofRat_round {q : ℚ} (hs : |q| ≤ 2 ^ 1023) (hn : F64.Normal q) :
    F64.ofRat q = .fin (round53 q) ∧ F64.Able (round53 q) ∧ |round53 q - q| ≤ 1 / 2 ^ 53 * |q| := by
  have h1 := round53_rel hn
  have h2 : |round53 q| < 2 ^ 1024 := by
    have h3 := abs_add_le (round53 q - q) q
    rw [sub_add_cancel] at h3
    have h4 : |round53 q| ≤ (1 / 2 ^ 53 + 1) * |q| := by linarith
    have h5 : (1 / 2 ^ 53 + 1) * |q| ≤ (1 / 2 ^ 53 + 1) * 2 ^ 1023 :=
      mul_le_mul_of_nonneg_left hs (by positivity)
    have h6 : ((1 / 2 ^ 53 + 1) * 2 ^ 1023 : ℚ) < 2 ^ 1024 := by
      rw [pow_succ (2 : ℚ) 1023, mul_comm]
      exact mul_lt_mul_of_pos_left (by norm_num) (by positivity)
    exact (h4.trans h5).trans_lt h6
  obtain ⟨k, hk, he⟩ := round53_form q
  exact ⟨by unfold F64.ofRat; rw [if_pos h2], F64.able_of_form h2 hk (lastBit_ge q) he, h1⟩

theorem F64.able_neg {q : ℚ} (h : F64.Able q) : F64.Able (-q) := by
  obtain ⟨hs, k, e, hk, he, rfl⟩ := F64.able_form h
  exact F64.able_of_form (k := -k) (by rwa [abs_neg]) (by rwa [abs_neg]) he (by push_cast; ring)

theorem F64.able_small {k : ℤ} (hk : |k| ≤ 2 ^ 53) : F64.Able (k : ℚ) := by
  have := F64.able_dyadic (u := 0) hk (by norm_num)
  simpa using this

/-- `float64`: the unit roundoff is `2^-53`. -/
def F64.rounding : RoundModel F64 ℚ where
  val := fun x => match x with
    | .fin q => q
    | _ => 0
  Fin := fun x => ∃ q, x = .fin q ∧ F64.Able q
  u := 1 / 2 ^ 53
  Small := fun q => |q| ≤ 2 ^ 1023
  Normal := F64.Normal
  u_nonneg := by positivity
  small_mono := fun h hq => h.trans hq
  zero := ⟨⟨0, rfl, by simpa using F64.able_small (k := 0) (by norm_num)⟩, rfl⟩
  one := ⟨⟨1, rfl, by simpa using F64.able_small (k := 1) (by norm_num)⟩, rfl⟩
  two := by
    have h : F64.Able 2 := by simpa using F64.able_small (k := 2) (by norm_num)
    have e : (GoNum.ofInt 2 : F64) = .fin 2 := h
    exact ⟨⟨2, e, h⟩, by rw [e]⟩
  neg_one := by
    have h : F64.Able (-1) := F64.able_neg (by simpa using F64.able_small (k := 1) (by norm_num))
    exact ⟨⟨-1, rfl, h⟩, rfl⟩
  add := by
    rintro _ _ ⟨p, rfl, hp⟩ ⟨q, rfl, hq⟩ hs
    obtain ⟨h1, h2, h3⟩ := F64.ofRat_round hs (Or.inr ((dyadics 1074).add_mem (F64.able_grid hp) (F64.able_grid hq)))
    have e : (GoNum.add (F64.fin p) (F64.fin q) : F64) = .fin (round53 (p + q)) := h1
    rw [e]
    exact ⟨⟨_, rfl, h2⟩, h3⟩
  zero_add := by
    rintro _ _ ⟨p, rfl, hp⟩ ⟨q, rfl, hq⟩ h0
    have h0 : p = 0 := h0
    subst h0
    have e : (GoNum.add (F64.fin 0) (F64.fin q) : F64) = .fin q := by
      show F64.ofRat (0 + q) = _
      rw [zero_add]; exact hq
    rw [e]
    exact ⟨⟨_, rfl, hq⟩, rfl⟩
  mul := by
    rintro _ _ ⟨p, rfl, hp⟩ ⟨q, rfl, hq⟩ hs hn
    obtain ⟨h1, h2, h3⟩ := F64.ofRat_round hs hn
    have e : (GoNum.mul (F64.fin p) (F64.fin q) : F64) = .fin (round53 (p * q)) := h1
    rw [e]
    exact ⟨⟨_, rfl, h2⟩, h3⟩
  mul_neg := by
    rintro _ ⟨p, rfl, hp⟩
    have e : (GoNum.mul (F64.fin p) negOne : F64) = .fin (-p) := by
      show F64.ofRat (p * -1) = _
      rw [mul_neg_one]; exact F64.able_neg hp
    rw [e]
    exact ⟨⟨_, rfl, F64.able_neg hp⟩, rfl⟩
  neg_mul := by
    rintro _ ⟨p, rfl, hp⟩
    have e : (GoNum.mul negOne (F64.fin p) : F64) = .fin (-p) := by
      show F64.ofRat (-1 * p) = _
      rw [neg_one_mul]; exact F64.able_neg hp
    rw [e]
    exact ⟨⟨_, rfl, F64.able_neg hp⟩, rfl⟩
  mul_one := by
    rintro _ ⟨p, rfl, hp⟩
    have e : (GoNum.mul (F64.fin p) GoNum.one : F64) = .fin p := by
      show F64.ofRat (p * 1) = _
      rw [_root_.mul_one]; exact hp
    rw [e]
    exact ⟨⟨_, rfl, hp⟩, rfl⟩
  feq := by
    rintro _ _ ⟨p, rfl, hp⟩ ⟨q, rfl, hq⟩
    exact F64.feq_exact p q

/-! ## Grids -/

/-- Rounding keeps multiples of `2^-p`. -/
theorem round53_grid {p : ℕ} {q : ℚ} (h : q ∈ dyadics p) : round53 q ∈ dyadics p := by
  have h2 : (2 : ℚ) ≠ 0 := by norm_num
  obtain ⟨m, hm⟩ := mem_dyadics.mp h
  by_cases hc : -(p : ℤ) ≤ lastBit q
  · obtain ⟨k, -, hk⟩ := round53_form q
    obtain ⟨n, hn⟩ := Int.eq_ofNat_of_zero_le (a := lastBit q + p) (by omega)
    refine mem_dyadics.mpr ⟨k * 2 ^ n, ?_⟩
    rw [hk, show lastBit q = (n : ℤ) + -(p : ℤ) by omega, zpow_add₀ h2, zpow_natCast, zpow_neg, zpow_natCast]
    push_cast
    rw [div_eq_mul_inv, mul_assoc]
  · obtain ⟨n, hn⟩ := Int.eq_ofNat_of_zero_le (a := -(p : ℤ) - lastBit q) (by omega)
    have : round53 q = q := by
      apply round53_of_int (k := m * 2 ^ n)
      have e : (2 : ℚ) ^ (-(p : ℤ)) = 2 ^ n * 2 ^ lastBit q := by
        rw [← zpow_natCast, ← zpow_add₀ h2]
        congr 1
        omega
      conv_lhs => rw [hm, div_eq_mul_inv, ← zpow_natCast, ← zpow_neg, e]
      push_cast
      ring
    rwa [this]

theorem dyadics_mono {p p' : ℕ} (h : p ≤ p') {q : ℚ} (hq : q ∈ dyadics p) : q ∈ dyadics p' := by
  obtain ⟨k, rfl⟩ := mem_dyadics.mp hq
  obtain ⟨n, rfl⟩ := Nat.exists_eq_add_of_le h
  refine mem_dyadics.mpr ⟨k * 2 ^ n, ?_⟩
  rw [pow_add]
  push_cast
  field_simp

theorem dyadics_mul {p p' : ℕ} {q q' : ℚ} (h : q ∈ dyadics p) (h' : q' ∈ dyadics p') :
    q * q' ∈ dyadics (p + p') := by
  obtain ⟨k, rfl⟩ := mem_dyadics.mp h
  obtain ⟨k', rfl⟩ := mem_dyadics.mp h'
  refine mem_dyadics.mpr ⟨k * k', ?_⟩
  rw [pow_add]
  push_cast
  field_simp

theorem dyadics_int (p : ℕ) (k : ℤ) : (k : ℚ) ∈ dyadics p :=
  dyadics_mono (Nat.zero_le p) (mem_dyadics.mpr ⟨k, by simp⟩)

theorem F64.ofRat_val {q r : ℚ} (h : F64.ofRat q = .fin r) : r = round53 q := by
  unfold F64.ofRat at h
  split at h
  · injection h with h; exact h.symm
  · cases h

/-- `float64` on multiples of `2^-p`: here no product underflows as long as it is such a multiple. -/
def F64.gridRounding (p : ℕ) (hp : p ≤ 1074) : RoundModel F64 ℚ where
  val := F64.rounding.val
  Fin := fun x => F64.rounding.Fin x ∧ F64.rounding.val x ∈ dyadics p
  u := 1 / 2 ^ 53
  Small := F64.rounding.Small
  Normal := fun q => q ∈ dyadics p
  u_nonneg := F64.rounding.u_nonneg
  small_mono := F64.rounding.small_mono
  zero := ⟨⟨F64.rounding.zero.1, (dyadics p).zero_mem⟩, rfl⟩
  one := ⟨⟨F64.rounding.one.1, by rw [F64.rounding.one.2]; simpa using dyadics_int p 1⟩, rfl⟩
  two := ⟨⟨F64.rounding.two.1, by rw [F64.rounding.two.2]; simpa using dyadics_int p 2⟩, F64.rounding.two.2⟩
  neg_one := ⟨⟨F64.rounding.neg_one.1, by rw [F64.rounding.neg_one.2]; simpa using dyadics_int p (-1)⟩,
    F64.rounding.neg_one.2⟩
  add := by
    rintro x y ⟨hx, gx⟩ ⟨hy, gy⟩ hs
    obtain ⟨h1, h2⟩ := F64.rounding.add hx hy hs
    refine ⟨⟨h1, ?_⟩, h2⟩
    obtain ⟨a, rfl, -⟩ := hx
    obtain ⟨b, rfl, -⟩ := hy
    obtain ⟨c, hc, -⟩ := h1
    rw [hc]
    show c ∈ _
    rw [F64.ofRat_val (show F64.ofRat (a + b) = .fin c from hc)]
    exact round53_grid ((dyadics p).add_mem gx gy)
  zero_add := by
    rintro x y ⟨hx, gx⟩ ⟨hy, gy⟩ h0
    obtain ⟨h1, h2⟩ := F64.rounding.zero_add hx hy h0
    exact ⟨⟨h1, by rw [h2]; exact gy⟩, h2⟩
  mul := by
    rintro x y ⟨hx, gx⟩ ⟨hy, gy⟩ hs hn
    obtain ⟨h1, h2⟩ := F64.rounding.mul hx hy hs (Or.inr (dyadics_mono hp hn))
    refine ⟨⟨h1, ?_⟩, h2⟩
    obtain ⟨a, rfl, -⟩ := hx
    obtain ⟨b, rfl, -⟩ := hy
    obtain ⟨c, hc, -⟩ := h1
    rw [hc]
    show c ∈ _
    rw [F64.ofRat_val (show F64.ofRat (a * b) = .fin c from hc)]
    exact round53_grid hn
  mul_neg := by
    rintro x ⟨hx, gx⟩
    obtain ⟨h1, h2⟩ := F64.rounding.mul_neg hx
    exact ⟨⟨h1, by rw [h2]; exact (dyadics p).neg_mem gx⟩, h2⟩
  neg_mul := by
    rintro x ⟨hx, gx⟩
    obtain ⟨h1, h2⟩ := F64.rounding.neg_mul hx
    exact ⟨⟨h1, by rw [h2]; exact (dyadics p).neg_mem gx⟩, h2⟩
  mul_one := by
    rintro x ⟨hx, gx⟩
    obtain ⟨h1, h2⟩ := F64.rounding.mul_one hx
    exact ⟨⟨h1, by rw [h2]; exact gx⟩, h2⟩
  feq := fun hx hy => F64.rounding.feq hx.1 hy.1

/-- Exact numbers are not rounded. -/
def exactRounding (K : Type) [Field K] [LinearOrder K] [IsStrictOrderedRing K] : RoundModel K K where
  val := id
  Fin := fun _ => True
  u := 0
  Small := fun _ => True
  Normal := fun _ => True
  u_nonneg := le_refl _
  small_mono := fun _ h => h
  zero := ⟨trivial, rfl⟩
  one := ⟨trivial, rfl⟩
  two := ⟨trivial, by simp⟩
  neg_one := ⟨trivial, by simp [negOne]⟩
  add := fun _ _ _ => ⟨trivial, by simp⟩
  zero_add := fun {x y} _ _ h => ⟨trivial, by
    have h : x = 0 := h
    simp [h]⟩
  mul := fun _ _ _ _ => ⟨trivial, by simp⟩
  mul_neg := fun _ => ⟨trivial, by simp [negOne]⟩
  neg_mul := fun _ => ⟨trivial, by simp [negOne]⟩
  mul_one := fun _ => ⟨trivial, by simp⟩
  feq := fun {x y} _ _ => by simp

end Verif
