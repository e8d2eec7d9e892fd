import Verif.Model.Binary64
import Verif.Lemmas.FloatSim
import Mathlib.Tactic.NormNum
import Mathlib.Tactic.Ring
import Mathlib.Tactic.FieldSimp

/-!
# When `float64` arithmetic is exact

A rational of the form `k / 2^u` with `|k| ≤ 2^53` and `u ≤ 1074` is a `float64`, so an operation whose
exact result has this form returns it.
-/

namespace Verif

theorem roundEven_int (k : ℤ) : roundEven (k : ℚ) = k := by
  unfold roundEven
  rw [Int.floor_intCast, sub_self, if_pos (by norm_num)]

/-- A number that is an integer multiple of its last bit is not changed by rounding. -/
theorem round53_of_int {q : ℚ} {k : ℤ} (h : q = k * 2 ^ lastBit q) : round53 q = q := by
  have h2 : (2 : ℚ) ^ lastBit q ≠ 0 := zpow_ne_zero _ (by norm_num)
  have e : q / 2 ^ lastBit q = k := by
    rw [div_eq_iff h2]; exact h
  unfold round53
  rw [e, roundEven_int]
  exact h.symm

/-- `k / 2^u` with at most 53 bits is not changed by rounding. -/
theorem round53_dyadic {k : ℤ} {u : ℕ} (hk : |k| ≤ 2 ^ 53) (hu : u ≤ 1074) :
    round53 ((k : ℚ) / 2 ^ u) = (k : ℚ) / 2 ^ u := by
  have h2 : (2 : ℚ) ≠ 0 := by norm_num
  rcases eq_or_ne k 0 with rfl | hk0
  · apply round53_of_int (k := 0); simp
  set q : ℚ := (k : ℚ) / 2 ^ u with hq
  have hq' : q = (k : ℚ) * 2 ^ (-(u : ℤ)) := by
    rw [hq, zpow_neg, zpow_natCast, div_eq_mul_inv]
  have hq0 : q ≠ 0 := by
    rw [hq]
    exact div_ne_zero (by exact_mod_cast hk0) (pow_ne_zero _ h2)
  by_cases hc : lastBit q ≤ -(u : ℤ)
  · obtain ⟨n, hn⟩ := Int.eq_ofNat_of_zero_le (sub_nonneg.mpr hc)
    apply round53_of_int (k := k * 2 ^ n)
    have e : -(u : ℤ) = (n : ℤ) + lastBit q := by omega
    conv_lhs => rw [hq', e, zpow_add₀ h2, zpow_natCast]
    push_cast
    ring
  · have hL : lastBit q = Int.log 2 |q| - 52 := by
      unfold lastBit at hc ⊢
      rcases max_choice (Int.log 2 |q| - 52) (-1074) with h | h
      · exact h
      · rw [h] at hc; omega
    have hlow : (2 : ℚ) ^ (lastBit q + 52) ≤ |q| := by
      have := Int.zpow_log_le_self (b := 2) (by norm_num) (abs_pos.mpr hq0)
      have e : lastBit q + 52 = Int.log 2 |q| := by omega
      rw [e]; exact_mod_cast this
    have habs : |q| = |(k : ℚ)| * 2 ^ (-(u : ℤ)) := by
      rw [hq', abs_mul, abs_of_pos (a := (2 : ℚ) ^ (-(u : ℤ))) (zpow_pos (by norm_num) _)]
    obtain ⟨n, hn⟩ := Int.eq_ofNat_of_zero_le (a := lastBit q + (u : ℤ) - 1) (by omega)
    have hk' : (2 : ℚ) ^ (n + 53) ≤ |(k : ℚ)| := by
      have hpos : (0 : ℚ) < 2 ^ (-(u : ℤ)) := zpow_pos (by norm_num) _
      rw [habs] at hlow
      have e : (2 : ℚ) ^ (lastBit q + 52) = 2 ^ (n + 53) * 2 ^ (-(u : ℤ)) := by
        rw [← zpow_natCast, ← zpow_add₀ h2]
        congr 1
        push_cast
        omega
      rw [e] at hlow
      exact le_of_mul_le_mul_right hlow hpos
    have hkZ : (2 : ℤ) ^ (n + 53) ≤ |k| := by exact_mod_cast hk'
    have hn0 : n = 0 := by
      by_contra hne
      have h1 : (2 : ℤ) ^ 54 ≤ 2 ^ (n + 53) := pow_le_pow_right₀ (by norm_num) (by omega)
      have : (2 : ℤ) ^ 54 ≤ 2 ^ 53 := h1.trans (hkZ.trans hk)
      norm_num at this
    subst hn0
    have hk53 : |k| = 2 ^ 53 := le_antisymm hk (by simpa using hkZ)
    have e : lastBit q = 1 + -(u : ℤ) := by omega
    have ex : ∃ s : ℤ, k = 2 * s := by
      rcases abs_eq (by norm_num : (0 : ℤ) ≤ 2 ^ 53) |>.mp hk53 with h | h
      · exact ⟨2 ^ 52, by rw [h]; norm_num⟩
      · exact ⟨-2 ^ 52, by rw [h]; norm_num⟩
    obtain ⟨s, hs⟩ := ex
    apply round53_of_int (k := s)
    conv_lhs => rw [hq', hs]
    rw [e, zpow_add₀ h2, zpow_one]
    push_cast
    ring

/-- `q` is the value of a `float64`. -/
def F64.Able (q : ℚ) : Prop := F64.ofRat q = .fin q

theorem F64.able_dyadic {k : ℤ} {u : ℕ} (hk : |k| ≤ 2 ^ 53) (hu : u ≤ 1074) :
    F64.Able ((k : ℚ) / 2 ^ u) := by
  unfold F64.Able F64.ofRat
  rw [round53_dyadic hk hu, if_pos]
  rw [abs_div, abs_of_pos (a := (2 : ℚ) ^ u) (by positivity)]
  calc |(k : ℚ)| / 2 ^ u ≤ |(k : ℚ)| := div_le_self (abs_nonneg _) (one_le_pow₀ (by norm_num))
    _ ≤ 2 ^ 53 := by exact_mod_cast hk
    _ < 2 ^ 1024 := pow_lt_pow_right₀ (by norm_num) (by norm_num)

/-- A bound of a variable: a finite number or an infinity, which stands for a number beyond them. -/
def F64.Bound (x : F64) (q : ℚ) : Prop :=
  (x = .fin q ∧ |q| < 2 ^ 1024) ∨ (x = .inf false ∧ q = 2 ^ 1024) ∨ (x = .inf true ∧ q = -2 ^ 1024)

theorem F64.add_exact {p q : ℚ} (h : F64.Able (p + q)) :
    GoNum.add (F64.fin p) (F64.fin q) = F64.fin (p + q) := h

theorem F64.mul_exact {p q : ℚ} (h : F64.Able (p * q)) :
    GoNum.mul (F64.fin p) (F64.fin q) = F64.fin (p * q) := h

theorem F64.sub_exact {p q : ℚ} (h : F64.Able (p - q)) :
    GoNum.sub (F64.fin p) (F64.fin q) = F64.fin (p - q) := by
  show F64.ofRat (p + -q) = _
  rw [← sub_eq_add_neg]; exact h

theorem F64.neg_exact (p : ℚ) : GoNum.neg (F64.fin p) = F64.fin (-p) := rfl

theorem F64.div_exact {p q : ℚ} (hq : q ≠ 0) (h : F64.Able (p / q)) :
    GoNum.div (F64.fin p) (F64.fin q) = F64.fin (p / q) := by
  show F64.div _ _ = _
  rw [F64.div, if_neg hq]; exact h

theorem F64.feq_exact (p q : ℚ) : GoNum.feq (F64.fin p) (F64.fin q) = true ↔ p = q :=
  decide_eq_true_iff

theorem F64.lt_exact (p q : ℚ) : GoNum.lt (F64.fin p) (F64.fin q) = true ↔ p < q :=
  decide_eq_true_iff

theorem F64.le_exact (p q : ℚ) : GoNum.le (F64.fin p) (F64.fin q) = true ↔ p ≤ q :=
  decide_eq_true_iff

theorem F64.feq_bounds {x y : F64} {p q : ℚ} (hx : F64.Bound x p) (hy : F64.Bound y q) :
    GoNum.feq x y = true ↔ p = q := by
  revert x y p q
  have pos : (0 : ℚ) < 2 ^ 1024 := by positivity
  rintro _ _ p q (⟨rfl, hp⟩ | ⟨rfl, rfl⟩ | ⟨rfl, rfl⟩) (⟨rfl, hq⟩ | ⟨rfl, rfl⟩ | ⟨rfl, rfl⟩)
  · exact decide_eq_true_iff
  · exact ⟨fun h => (by cases h), fun h => (by linarith [(abs_lt.1 hp).2])⟩
  · exact ⟨fun h => (by cases h), fun h => (by linarith [(abs_lt.1 hp).1])⟩
  · exact ⟨fun h => (by cases h), fun h => (by linarith [(abs_lt.1 hq).2])⟩
  · exact ⟨fun _ => rfl, fun _ => rfl⟩
  · exact ⟨fun h => (by cases h), fun h => (by exfalso; generalize (2 : ℚ) ^ 1024 = M at *; linarith)⟩
  · exact ⟨fun h => (by cases h), fun h => (by linarith [(abs_lt.1 hq).1])⟩
  · exact ⟨fun h => (by cases h), fun h => (by exfalso; generalize (2 : ℚ) ^ 1024 = M at *; linarith)⟩
  · exact ⟨fun _ => rfl, fun _ => rfl⟩

theorem F64.le_bounds {x y : F64} {p q : ℚ} (hx : F64.Bound x p) (hy : F64.Bound y q) :
    GoNum.le x y = true ↔ p ≤ q := by
  revert x y p q
  have pos : (0 : ℚ) < 2 ^ 1024 := by positivity
  rintro _ _ p q (⟨rfl, hp⟩ | ⟨rfl, rfl⟩ | ⟨rfl, rfl⟩) (⟨rfl, hq⟩ | ⟨rfl, rfl⟩ | ⟨rfl, rfl⟩)
  · exact decide_eq_true_iff
  · exact ⟨fun _ => (abs_lt.1 hp).2.le, fun _ => rfl⟩
  · exact ⟨fun h => (by cases h), fun h => (by linarith [(abs_lt.1 hp).1])⟩
  · exact ⟨fun h => (by cases h), fun h => (by linarith [(abs_lt.1 hq).2])⟩
  · exact ⟨fun _ => le_rfl, fun _ => rfl⟩
  · exact ⟨fun h => (by cases h), fun h => (by exfalso; generalize (2 : ℚ) ^ 1024 = M at *; linarith)⟩
  · exact ⟨fun _ => (abs_lt.1 hq).1.le, fun _ => rfl⟩
  · exact ⟨fun _ => (by generalize (2 : ℚ) ^ 1024 = M at *; linarith), fun _ => rfl⟩
  · exact ⟨fun _ => le_rfl, fun _ => rfl⟩

/-- `float64` with the rationals as exact numbers. -/
def F64.model : FloatModel F64 ℚ where
  Rep := fun x q => x = .fin q
  Able := F64.Able
  BRep := F64.Bound
  zero := rfl
  one := rfl
  add := by rintro _ _ p q rfl rfl h; exact F64.add_exact h
  mul := by rintro _ _ p q rfl rfl h; exact F64.mul_exact h
  sub := by rintro _ _ p q rfl rfl h; exact F64.sub_exact h
  neg := by rintro _ p rfl; exact F64.neg_exact p
  div := by rintro _ _ p q rfl rfl hq h; exact F64.div_exact hq h
  ofInt := fun k h => h
  feq := by rintro _ _ p q rfl rfl; exact F64.feq_exact p q
  lt := by rintro _ _ p q rfl rfl; exact F64.lt_exact p q
  le := by rintro _ _ p q rfl rfl; exact F64.le_exact p q
  bfeq := F64.feq_bounds
  ble := F64.le_bounds

/-- The multiples of `2^-u`. -/
def dyadics (u : ℕ) : AddSubgroup ℚ where
  carrier := {q | ∃ k : ℤ, q = (k : ℚ) / 2 ^ u}
  zero_mem' := ⟨0, by simp⟩
  add_mem' := by
    rintro _ _ ⟨k, rfl⟩ ⟨l, rfl⟩
    exact ⟨k + l, by push_cast; ring⟩
  neg_mem' := by
    rintro _ ⟨k, rfl⟩
    exact ⟨-k, by push_cast; ring⟩

theorem mem_dyadics {u : ℕ} {q : ℚ} : q ∈ dyadics u ↔ ∃ k : ℤ, q = (k : ℚ) / 2 ^ u := Iff.rfl

/-- The multiples of the negative powers of two. -/
def dyadicGrids : Grids ℚ where
  g := dyadics
  one := fun i => ⟨2 ^ i, by push_cast; rw [div_self (by positivity)]⟩
  mul := by
    rintro i j _ _ ⟨k, rfl⟩ ⟨l, rfl⟩
    refine ⟨k * l, ?_⟩
    push_cast
    rw [pow_add]
    field_simp

/-- Multiples of `2^-u` of absolute value at most `2^53 / 2^u` are `float64`s. -/
theorem F64.fit {u : ℕ} {B : ℚ} (hu : u ≤ 1074) (hB : B * 2 ^ u ≤ 2 ^ 53) :
    Fit F64.model (dyadics u) B where
  one := dyadicGrids.one u
  able := by
    rintro _ ⟨k, rfl⟩ hb
    refine F64.able_dyadic ?_ hu
    have h2 : (0 : ℚ) < 2 ^ u := by positivity
    rw [abs_div, abs_of_pos h2, div_le_iff₀ h2] at hb
    exact_mod_cast hb.trans hB

end Verif
