import Verif.Model.Format
import Verif.Props.Round
import Verif.Props.Text

/-!
# C84: printed `float64` numbers read back

C53 is about exact numbers and takes the format of numbers as a parameter.  Here the format is that of Go's `%v`: the
text of every finite `float64` reads back as the same number, so different numbers look different, and C53 holds for
`float64` expressions without assumptions about the format.
-/

set_option linter.unusedSectionVars false

namespace Verif

/-! ## Specification -/

/-- The number that a text with digits, a point and an exponent stands for. -/
def unsignedValue (s : List Char) : ℚ :=
  let m := s.takeWhile (· != 'e')
  let i := m.takeWhile (· != '.')
  let f := (m.dropWhile (· != '.')).drop 1
  (Nat.ofDigitChars 10 (i ++ f) 0 : ℚ) / 10 ^ f.length *
    10 ^ (match s.dropWhile (· != 'e') with
      | 'e' :: '-' :: x => -(Nat.ofDigitChars 10 x 0 : ℤ)
      | 'e' :: '+' :: x => (Nat.ofDigitChars 10 x 0 : ℤ)
      | _ => 0)

/-- The number that a text stands for. -/
def decimalValue : List Char → ℚ
  | '-' :: s => -unsignedValue s
  | s => unsignedValue s

/-! ## Reading a text -/

theorem digit_ne {a : Char} (h : a.isDigit = true) : (a != 'e') = true ∧ (a != '.') = true := by
  constructor <;>
  · rw [bne_iff_ne]
    rintro rfl
    cases h

theorem takeWhile_split {p : Char → Bool} {l r : List Char} (hl : ∀ a ∈ l, p a = true) {c : Char} (hc : p c = false) :
    (l ++ c :: r).takeWhile p = l ∧ (l ++ c :: r).dropWhile p = c :: r := by
  constructor
  · rw [List.takeWhile_append_of_pos hl, List.takeWhile_cons_of_neg (by simp [hc]), List.append_nil]
  · rw [List.dropWhile_append_of_pos hl, List.dropWhile_cons_of_neg (by simp [hc])]

theorem takeWhile_all {p : Char → Bool} {l : List Char} (hl : ∀ a ∈ l, p a = true) :
    l.takeWhile p = l ∧ l.dropWhile p = [] :=
  by
  induction l with
  | nil => exact ⟨rfl, rfl⟩
  | cons a l ih =>
    obtain ⟨h1, h2⟩ := ih fun b hb => hl b (List.mem_cons_of_mem _ hb)
    have ha := hl a List.mem_cons_self
    exact ⟨by rw [List.takeWhile_cons_of_pos ha, h1], by rw [List.dropWhile_cons_of_pos ha, h2]⟩

/-- Digits, point, digits, and perhaps more. -/
theorem value_parts {i f x : List Char} (hi : ∀ a ∈ i, a.isDigit = true) (hf : ∀ a ∈ f, a.isDigit = true)
    {m : List Char} (hm : m = i ++ '.' :: f ∨ m = i ∧ f = []) (hx : x = [] ∨ ∃ y, x = 'e' :: y) :
    unsignedValue (m ++ x) = (Nat.ofDigitChars 10 (i ++ f) 0 : ℚ) / 10 ^ f.length *
      10 ^ (match x with
      | 'e' :: '-' :: x => -(Nat.ofDigitChars 10 x 0 : ℤ)
      | 'e' :: '+' :: x => (Nat.ofDigitChars 10 x 0 : ℤ)
      | _ => 0) := by
  have hme : ∀ a ∈ m, (a != 'e') = true := by
    intro a ha
    rcases hm with rfl | ⟨rfl, -⟩
    · rcases List.mem_append.mp ha with h | h
      · exact (digit_ne (hi a h)).1
      · rcases List.mem_cons.mp h with rfl | h
        · decide
        · exact (digit_ne (hf a h)).1
    · exact (digit_ne (hi a ha)).1
  have e1 : (m ++ x).takeWhile (· != 'e') = m ∧ (m ++ x).dropWhile (· != 'e') = x := by
    rcases hx with rfl | ⟨y, rfl⟩
    · rw [List.append_nil]
      exact takeWhile_all hme
    · exact takeWhile_split hme (by decide)
  have e2 : m.takeWhile (· != '.') = i ∧ (m.dropWhile (· != '.')).drop 1 = f := by
    rcases hm with rfl | ⟨rfl, rfl⟩
    · obtain ⟨h1, h2⟩ := takeWhile_split (p := (· != '.')) (r := f) (fun a ha => (digit_ne (hi a ha)).2) (c := '.') (by decide)
      exact ⟨h1, by rw [h2]; rfl⟩
    · obtain ⟨h1, h2⟩ := takeWhile_all (p := (· != '.')) (fun a ha => (digit_ne (hi a ha)).2)
      exact ⟨h1, by rw [h2]; rfl⟩
  unfold unsignedValue
  simp only [e1.1, e1.2, e2.1, e2.2]

theorem fmtExp_value {ds : List Char} (hd : ∀ a ∈ ds, a.isDigit = true) (hne : ds ≠ []) (x : ℤ) :
    unsignedValue (fmtExp ds x) = Nat.ofDigitChars 10 ds 0 * 10 ^ (x + 1 - ds.length) := by
  obtain ⟨a, f, rfl⟩ := List.exists_cons_of_ne_nil hne
  have hx : (match ('e' :: (if x < 0 then '-' else '+') :: ((if x.natAbs < 10 then ['0'] else []) ++
      Nat.toDigits 10 x.natAbs) : List Char) with
      | 'e' :: '-' :: x => -(Nat.ofDigitChars 10 x 0 : ℤ)
      | 'e' :: '+' :: x => (Nat.ofDigitChars 10 x 0 : ℤ)
      | _ => 0) = x := by
    have e : Nat.ofDigitChars 10 ((if x.natAbs < 10 then ['0'] else []) ++ Nat.toDigits 10 x.natAbs) 0 = x.natAbs := by
      split
      · rw [List.singleton_append, Nat.ofDigitChars_cons]
        exact Nat.ofDigitChars_ten_toDigits
      · exact Nat.ofDigitChars_ten_toDigits
    by_cases h : x < 0
    · simp only [if_pos h, e]
      rw [Int.ofNat_natAbs_of_nonpos h.le, neg_neg]
    · simp only [if_neg h, e]
      exact Int.natAbs_of_nonneg (not_lt.mp h)
  have h1 : fmtExp (a :: f) x = ((a :: f).take 1 ++ (if (a :: f).length ≤ 1 then [] else '.' :: (a :: f).drop 1)) ++
      'e' :: (if x < 0 then '-' else '+') :: ((if x.natAbs < 10 then ['0'] else []) ++ Nat.toDigits 10 x.natAbs) := by
    simp [fmtExp]
  rw [h1, value_parts (i := [a]) (f := f) (fun b hb => hd b (by simp_all)) (fun b hb => hd b (by simp_all)) (by
      cases f with
      | nil => right; simp
      | cons b f => left; simp) (.inr ⟨_, rfl⟩), hx, List.singleton_append, List.length_cons]
  rw [div_mul_eq_mul_div, mul_div_assoc]
  congr 1
  rw [← zpow_natCast, ← zpow_sub₀ (by norm_num)]
  congr 1
  push_cast
  ring

theorem fmtFix_value {ds : List Char} (hd : ∀ a ∈ ds, a.isDigit = true) (p : ℤ) :
    unsignedValue (fmtFix ds p) = Nat.ofDigitChars 10 ds 0 * 10 ^ (p - ds.length) := by
  have hz : ∀ n, ∀ a ∈ List.replicate n '0', a.isDigit = true := by
    intro n a ha
    rw [(List.mem_replicate.mp ha).2]; rfl
  unfold fmtFix
  split
  · next h =>
    have := value_parts (i := ['0']) (f := List.replicate (-p).toNat '0' ++ ds) (x := []) (by simp)
      (by
        intro a ha
        rcases List.mem_append.mp ha with h | h
        · exact hz _ a h
        · exact hd a h) (.inl rfl) (.inl rfl)
    rw [List.append_nil, List.singleton_append] at this
    rw [List.cons_append, List.cons_append, this]
    dsimp only
    rw [zpow_zero, mul_one, List.singleton_append, Nat.ofDigitChars_cons, Nat.ofDigitChars_append,
      show 10 * 0 + ('0'.toNat - '0'.toNat) = 0 from rfl, Nat.ofDigitChars_replicate_zero, mul_zero, List.length_append,
      List.length_replicate, div_eq_mul_inv, ← zpow_natCast, ← zpow_neg]
    congr 2
    push_cast
    rw [Int.toNat_of_nonneg (by omega)]
    ring
  · split
    · next h1 h2 =>
      have := value_parts (i := ds ++ List.replicate (p.toNat - ds.length) '0') (f := []) (x := [])
        (by
          intro a ha
          rcases List.mem_append.mp ha with h | h
          · exact hd a h
          · exact hz _ a h) (by simp) (.inr ⟨rfl, rfl⟩) (.inl rfl)
      rw [List.append_nil] at this
      simp only at this
      rw [this]
      rw [zpow_zero, mul_one, List.length_nil, pow_zero, div_one, Nat.ofDigitChars_append,
        Nat.ofDigitChars_replicate_zero]
      push_cast
      rw [mul_comm, ← zpow_natCast]
      congr 2
      rw [Nat.cast_sub h2, Int.toNat_of_nonneg (by omega)]
    · next h1 h2 =>
      have := value_parts (i := ds.take p.toNat) (f := ds.drop p.toNat) (x := [])
        (fun a ha => hd a (List.mem_of_mem_take ha)) (fun a ha => hd a (List.mem_of_mem_drop ha)) (.inl rfl) (.inl rfl)
      rw [List.append_nil] at this
      rw [this]
      dsimp only
      rw [zpow_zero, mul_one, List.take_append_drop, List.length_drop, div_eq_mul_inv, ← zpow_natCast, ← zpow_neg]
      congr 2
      rw [Nat.cast_sub (by omega), Int.toNat_of_nonneg (by omega)]
      ring

theorem stripZeros_value (fuel d : ℕ) (e : ℤ) :
    ((stripZeros fuel d e).1 : ℚ) * 10 ^ (stripZeros fuel d e).2 = d * 10 ^ e := by
  induction fuel generalizing d e with
  | zero => rfl
  | succ f ih =>
    unfold stripZeros
    split
    · next h =>
      rw [ih]
      obtain ⟨k, rfl⟩ := Nat.dvd_of_mod_eq_zero h
      rw [Nat.mul_div_cancel_left _ (by norm_num), zpow_add₀ (by norm_num)]
      push_cast
      ring
    · rfl

/-- The zeros at the end are gone. -/
theorem stripZeros_spec {fuel d : ℕ} (e : ℤ) (h0 : d ≠ 0) (hd : d < 10 ^ fuel) :
    ¬10 ∣ (stripZeros fuel d e).1 ∧ (stripZeros fuel d e).1 ≤ d ∧ (stripZeros fuel d e).1 ≠ 0 := by
  induction fuel generalizing d e with
  | zero => rw [pow_zero] at hd; omega
  | succ f ih =>
    unfold stripZeros
    split
    · next h =>
      rw [pow_succ] at hd
      obtain ⟨h1, h2, h3⟩ := ih (e + 1) (d := d / 10) (by omega) (by omega)
      exact ⟨h1, by omega, h3⟩
    · next h => exact ⟨fun hc => h (Nat.mod_eq_zero_of_dvd hc), le_rfl, h0⟩

theorem toDigits_bound (d : ℕ) : d < 10 ^ (Nat.toDigits 10 d).length :=
  (Nat.length_toDigits_le_iff (by norm_num) Nat.length_toDigits_pos).mp le_rfl

theorem fmtDec_value (t : ℤ) (d : ℕ) (e : ℤ) : unsignedValue (fmtDec t d e) = d * 10 ^ e := by
  unfold fmtDec
  have hd : ∀ n, ∀ a ∈ Nat.toDigits 10 n, a.isDigit = true := fun n a ha => toDigits_digit ha
  dsimp only
  rw [← stripZeros_value (Nat.toDigits 10 d).length d e]
  split
  · rw [fmtExp_value (hd _) Nat.toDigits_ne_nil, Nat.ofDigitChars_ten_toDigits]
    congr 2
    ring
  · rw [fmtFix_value (hd _), Nat.ofDigitChars_ten_toDigits]
    congr 2
    ring

/-! ## Rounding is monotone -/

theorem roundEven_bounds (q : ℚ) : ⌊q⌋ ≤ roundEven q ∧ roundEven q ≤ ⌊q⌋ + 1 := by
  unfold roundEven
  split_ifs <;> omega

theorem roundEven_mono {a b : ℚ} (h : a ≤ b) : roundEven a ≤ roundEven b := by
  have hf : ⌊a⌋ ≤ ⌊b⌋ := Int.floor_le_floor h
  rcases lt_or_eq_of_le hf with h1 | h1
  · have := (roundEven_bounds a).2
    have := (roundEven_bounds b).1
    omega
  · unfold roundEven
    rw [h1]
    split_ifs <;> first | omega | (exfalso; linarith)

theorem round53_mono {a b : ℚ} (ha : 0 < a) (h : a ≤ b) : round53 a ≤ round53 b := by
  have hb : 0 < b := ha.trans_le h
  have h2 : (2 : ℚ) ≠ 0 := by norm_num
  have hl : lastBit a ≤ lastBit b := by
    unfold lastBit
    rw [abs_of_pos ha, abs_of_pos hb]
    exact max_le_max (sub_le_sub_right (Int.log_mono_right ha h) _) le_rfl
  rcases lt_or_eq_of_le hl with h1 | h1
  · have hLb : lastBit b = Int.log 2 b - 52 := by
      have := lastBit_ge a
      unfold lastBit at h1 ⊢
      rw [abs_of_pos hb] at h1 ⊢
      omega
    have hLa : Int.log 2 a - 52 ≤ lastBit a := by
      unfold lastBit
      rw [abs_of_pos ha]
      exact le_max_left _ _
    have b1 : (2 : ℚ) ^ Int.log 2 b ≤ b := by
      have := Int.zpow_log_le_self (b := 2) (r := b) (by norm_num) hb
      exact_mod_cast this
    have a1 : a < 2 ^ Int.log 2 b := by
      have := Int.lt_zpow_succ_log_self (b := 2) (by norm_num) a
      refine lt_of_lt_of_le (by exact_mod_cast this) (zpow_le_zpow_right₀ (by norm_num) ?_)
      omega
    have key : ∀ {u : ℤ}, u ≤ Int.log 2 b → ∃ k : ℤ, (2 : ℚ) ^ Int.log 2 b / 2 ^ u = k ∧ (k : ℚ) * 2 ^ u = 2 ^ Int.log 2 b := by
      intro u hu
      obtain ⟨n, hn⟩ := Int.eq_ofNat_of_zero_le (a := Int.log 2 b - u) (by omega)
      have e : (2 : ℚ) ^ Int.log 2 b / 2 ^ u = ((2 ^ n : ℤ) : ℚ) := by
        rw [← zpow_sub₀ h2, hn]
        push_cast
        exact zpow_natCast _ _
      exact ⟨2 ^ n, e, by rw [← e, div_mul_cancel₀ _ (zpow_ne_zero _ h2)]⟩
    have ra : round53 a ≤ 2 ^ Int.log 2 b := by
      obtain ⟨k, k1, k2⟩ := key (u := lastBit a) (by omega)
      rw [← k2]
      unfold round53
      refine mul_le_mul_of_nonneg_right ?_ (zpow_nonneg (by norm_num) _)
      have : roundEven (a / 2 ^ lastBit a) ≤ roundEven (k : ℚ) :=
        roundEven_mono (by rw [← k1]; exact div_le_div_of_nonneg_right a1.le (zpow_nonneg (by norm_num) _))
      rw [roundEven_int] at this
      exact_mod_cast this
    have rb : (2 : ℚ) ^ Int.log 2 b ≤ round53 b := by
      obtain ⟨k, k1, k2⟩ := key (u := lastBit b) (by omega)
      rw [← k2]
      unfold round53
      refine mul_le_mul_of_nonneg_right ?_ (zpow_nonneg (by norm_num) _)
      have : roundEven (k : ℚ) ≤ roundEven (b / 2 ^ lastBit b) :=
        roundEven_mono (by rw [← k1]; exact div_le_div_of_nonneg_right b1 (zpow_nonneg (by norm_num) _))
      rw [roundEven_int] at this
      exact_mod_cast this
    exact ra.trans rb
  · unfold round53
    rw [h1]
    refine mul_le_mul_of_nonneg_right ?_ (zpow_nonneg (by norm_num) _)
    exact_mod_cast roundEven_mono (div_le_div_of_nonneg_right h (zpow_nonneg (by norm_num) _))

/-- What lies between a float and a number that reads as it reads as it. -/
theorem reads_between {q a b : ℚ} (hq : F64.ofRat q = .fin q) (ha : F64.ofRat a = .fin q) (hp : 0 < q) (h0 : 0 < a)
    (h : a ≤ b ∧ b ≤ q ∨ q ≤ b ∧ b ≤ a) : F64.ofRat b = .fin q := by
  have e1 := F64.ofRat_val hq
  have e2 := F64.ofRat_val ha
  have e3 : round53 b = q := by
    rcases h with ⟨h1, h2⟩ | ⟨h1, h2⟩
    · exact le_antisymm ((round53_mono (h0.trans_le h1) h2).trans e1.ge) (e2.le.trans (round53_mono h0 h1))
    · exact le_antisymm ((round53_mono (hp.trans_le h1) h2).trans e2.ge) (e1.le.trans (round53_mono hp h1))
  unfold F64.ofRat at hq ⊢
  rw [← e1] at hq
  rw [e3]
  split at hq
  · rename_i hs
    rw [if_pos hs]
  · cases hq

/-! ## The shortest decimal -/

theorem decimalOf_reads {q : ℚ} {n d : ℕ} {e : ℤ} (h : decimalOf q n = some (d, e)) :
    F64.ofRat (d * 10 ^ e) = .fin q ∧ e = Int.log 10 q + 1 - n := by
  unfold decimalOf at h
  dsimp only at h
  split at h
  · rename_i h1 h2
    injection h with h
    injection h with h3 h4
    subst h4
    refine ⟨?_, rfl⟩
    subst h3
    have hb := roundEven_bounds (q / 10 ^ (Int.log 10 q + 1 - n))
    rcases (show roundEven (q / 10 ^ (Int.log 10 q + 1 - n)) = ⌊q / 10 ^ (Int.log 10 q + 1 - n)⌋ ∨
      roundEven (q / 10 ^ (Int.log 10 q + 1 - n)) = ⌊q / 10 ^ (Int.log 10 q + 1 - n)⌋ + 1 by omega) with e | e
    · rw [e]; exact of_decide_eq_true h1
    · rw [e]; exact of_decide_eq_true h2
  · rename_i h1 h2
    injection h with h
    injection h with h3 h4
    subst h3 h4
    exact ⟨of_decide_eq_true h1, rfl⟩
  · rename_i h1 h2
    injection h with h
    injection h with h3 h4
    subst h3 h4
    exact ⟨of_decide_eq_true h2, rfl⟩
  · cases h

theorem decimalOf_of {q : ℚ} {n : ℕ} (h : readsAs q ⌊q / 10 ^ (Int.log 10 q + 1 - n)⌋.toNat (Int.log 10 q + 1 - n) = true ∨
    readsAs q (⌊q / 10 ^ (Int.log 10 q + 1 - n)⌋ + 1).toNat (Int.log 10 q + 1 - n) = true) : ∃ r, decimalOf q n = some r := by
  unfold decimalOf
  dsimp only
  split
  · exact ⟨_, rfl⟩
  · exact ⟨_, rfl⟩
  · exact ⟨_, rfl⟩
  · rename_i h1 h2
    rw [h1, h2] at h
    simp at h

/-- A decimal with at most `n` digits is not between `q` and the two next to `q` that are tried. -/
theorem decimal_side {q : ℚ} (hp : 0 < q) {n d : ℕ} (e : ℤ) (hn : 0 < n) (hd : d ≤ 10 ^ n) :
    d * 10 ^ e ≤ q ∧ d * 10 ^ e ≤ ((⌊q / 10 ^ (Int.log 10 q + 1 - n)⌋.toNat : ℕ) : ℚ) * 10 ^ (Int.log 10 q + 1 - n) ∨
    q < d * 10 ^ e ∧ (((⌊q / 10 ^ (Int.log 10 q + 1 - n)⌋ + 1).toNat : ℕ) : ℚ) * 10 ^ (Int.log 10 q + 1 - n) ≤ d * 10 ^ e := by
  have t0 : (10 : ℚ) ≠ 0 := by norm_num
  have hP : ∀ z : ℤ, (0 : ℚ) < 10 ^ z := fun z => zpow_pos (by norm_num) z
  set L := Int.log 10 q
  set E := L + 1 - n with hE
  have hL : (10 : ℚ) ^ L ≤ q := by
    have := Int.zpow_log_le_self (b := 10) (r := q) (by norm_num) hp
    exact_mod_cast this
  have pow10 : ∀ {u w : ℤ}, u ≤ w → ∃ k : ℕ, (10 : ℚ) ^ w = (k : ℚ) * 10 ^ u := by
    intro u w hu
    obtain ⟨m, hm⟩ := Int.eq_ofNat_of_zero_le (a := w - u) (by omega)
    refine ⟨10 ^ m, ?_⟩
    rw [show w = m + u by omega, zpow_add₀ t0]
    push_cast
    rw [zpow_natCast]
  obtain ⟨k, hk⟩ := pow10 (u := E) (w := L) (by omega)
  have small : e < E → (d : ℚ) * 10 ^ e ≤ 10 ^ L := by
    intro he
    have h1 : (d : ℚ) ≤ 10 ^ (n : ℤ) := by
      rw [zpow_natCast]
      exact_mod_cast hd
    refine (mul_le_mul_of_nonneg_right h1 (hP e).le).trans ?_
    rw [← zpow_add₀ t0]
    exact zpow_le_zpow_right₀ (by norm_num) (by omega)
  have s0 : 0 ≤ ⌊q / 10 ^ E⌋ := Int.floor_nonneg.mpr (div_nonneg hp.le (hP E).le)
  have c1 : ((⌊q / 10 ^ E⌋.toNat : ℕ) : ℚ) = ⌊q / 10 ^ E⌋ := by
    exact_mod_cast Int.toNat_of_nonneg s0
  have c2 : (((⌊q / 10 ^ E⌋ + 1).toNat : ℕ) : ℚ) = ⌊q / 10 ^ E⌋ + 1 := by
    exact_mod_cast Int.toNat_of_nonneg (by omega : 0 ≤ ⌊q / 10 ^ E⌋ + 1)
  have low : ∀ {k : ℕ}, (k : ℚ) * 10 ^ E ≤ q → (k : ℚ) * 10 ^ E ≤ ⌊q / 10 ^ E⌋ * 10 ^ E := by
    intro k hk
    refine mul_le_mul_of_nonneg_right ?_ (hP E).le
    have : (k : ℤ) ≤ ⌊q / 10 ^ E⌋ := Int.le_floor.mpr (by rw [le_div_iff₀ (hP E)]; exact_mod_cast hk)
    exact_mod_cast this
  rw [c1, c2]
  rcases le_or_gt ((d : ℚ) * 10 ^ e) q with hc | hc
  · refine .inl ⟨hc, ?_⟩
    rcases lt_or_ge e E with he | he
    · refine (small he).trans ?_
      rw [hk] at hL ⊢
      exact low hL
    · obtain ⟨j, hj⟩ := pow10 he
      have e1 : (d : ℚ) * 10 ^ e = ((d * j : ℕ) : ℚ) * 10 ^ E := by rw [hj]; push_cast; ring
      rw [e1] at hc ⊢
      exact low hc
  · refine .inr ⟨hc, ?_⟩
    rcases lt_or_ge e E with he | he
    · exact absurd ((small he).trans hL) (not_le.mpr hc)
    · obtain ⟨j, hj⟩ := pow10 he
      have e1 : (d : ℚ) * 10 ^ e = ((d * j : ℕ) : ℚ) * 10 ^ E := by rw [hj]; push_cast; ring
      rw [e1] at hc ⊢
      refine mul_le_mul_of_nonneg_right ?_ (hP E).le
      have : ⌊q / 10 ^ E⌋ < ((d * j : ℕ) : ℤ) := Int.floor_lt.mpr (by rw [div_lt_iff₀ (hP E)]; exact_mod_cast hc)
      exact_mod_cast this

/-- The two decimals that are tried. -/
theorem tried_bounds {q : ℚ} (hp : 0 < q) (E : ℤ) :
    ((⌊q / 10 ^ E⌋.toNat : ℕ) : ℚ) * 10 ^ E ≤ q ∧ q ≤ (((⌊q / 10 ^ E⌋ + 1).toNat : ℕ) : ℚ) * 10 ^ E := by
  have hP : (0 : ℚ) < 10 ^ E := zpow_pos (by norm_num) E
  have s0 : 0 ≤ ⌊q / 10 ^ E⌋ := Int.floor_nonneg.mpr (div_nonneg hp.le hP.le)
  have c1 : ((⌊q / 10 ^ E⌋.toNat : ℕ) : ℚ) = ⌊q / 10 ^ E⌋ := by
    exact_mod_cast Int.toNat_of_nonneg s0
  have c2 : (((⌊q / 10 ^ E⌋ + 1).toNat : ℕ) : ℚ) = ⌊q / 10 ^ E⌋ + 1 := by
    exact_mod_cast Int.toNat_of_nonneg (by omega : 0 ≤ ⌊q / 10 ^ E⌋ + 1)
  rw [c1, c2]
  constructor
  · rw [← le_div_iff₀ hP]
    exact Int.floor_le _
  · rw [← div_le_iff₀ hP]
    exact (Int.lt_floor_add_one _).le

/-- If some decimal with `n` digits reads as `q`, then one of those tried does. -/
theorem tried_reads {q : ℚ} (hq : F64.ofRat q = .fin q) (hp : 0 < q) {n d : ℕ} {e : ℤ} (hn : 0 < n) (hd : d ≤ 10 ^ n)
    (h0 : 0 < d) (h : F64.ofRat (d * 10 ^ e) = .fin q) :
    d * 10 ^ e ≤ q ∧ readsAs q ⌊q / 10 ^ (Int.log 10 q + 1 - n)⌋.toNat (Int.log 10 q + 1 - n) = true ∨
    q < d * 10 ^ e ∧ readsAs q (⌊q / 10 ^ (Int.log 10 q + 1 - n)⌋ + 1).toNat (Int.log 10 q + 1 - n) = true := by
  have hD : (0 : ℚ) < d * 10 ^ e := mul_pos (by exact_mod_cast h0) (zpow_pos (by norm_num) e)
  obtain ⟨b1, b2⟩ := tried_bounds hp (Int.log 10 q + 1 - n)
  rcases decimal_side hp e hn hd with ⟨h1, h2⟩ | ⟨h1, h2⟩
  · exact .inl ⟨h1, decide_eq_true (reads_between hq h hp hD (.inl ⟨h2, b1⟩))⟩
  · exact .inr ⟨h1, decide_eq_true (reads_between hq h hp hD (.inr ⟨b2, h2⟩))⟩

theorem decimalOf_some {q : ℚ} (hq : F64.ofRat q = .fin q) (hp : 0 < q) {n d : ℕ} {e : ℤ} (hn : 0 < n) (hd : d ≤ 10 ^ n)
    (h0 : 0 < d) (h : F64.ofRat (d * 10 ^ e) = .fin q) : ∃ r, decimalOf q n = some r :=
  decimalOf_of ((tried_reads hq hp hn hd h0 h).imp And.right And.right)

/-- The decimal that is written has at most `n` digits, zeros at its end aside. -/
theorem decimalOf_size {q : ℚ} {n d : ℕ} {e : ℤ} (h : decimalOf q n = some (d, e)) : d ≤ 10 ^ n := by
  have t0 : (10 : ℚ) ≠ 0 := by norm_num
  have hf : ⌊q / 10 ^ (Int.log 10 q + 1 - n)⌋ < 10 ^ n := by
    rw [Int.floor_lt, div_lt_iff₀ (zpow_pos (by norm_num) _)]
    have := Int.lt_zpow_succ_log_self (b := 10) (by norm_num) q
    refine lt_of_lt_of_le (by exact_mod_cast this) (le_of_eq ?_)
    push_cast
    rw [← zpow_natCast, ← zpow_add₀ t0]
    congr 1
    ring
  have hb := roundEven_bounds (q / 10 ^ (Int.log 10 q + 1 - n))
  have key : ∀ z : ℤ, z ≤ 10 ^ n → z.toNat ≤ 10 ^ n := by
    intro z hz
    exact Int.toNat_le.mpr (by push_cast; exact hz)
  unfold decimalOf at h
  dsimp only at h
  split at h <;> cases h <;> refine key _ ?_ <;> omega

/-- No decimal with as few digits that reads as `q` is nearer to `q`. -/
theorem decimalOf_nearest {q : ℚ} (hq : F64.ofRat q = .fin q) (hp : 0 < q) {n d d' : ℕ} {e e' : ℤ} (hn : 0 < n)
    (h : decimalOf q n = some (d, e)) (hd : d' ≤ 10 ^ n) (h0 : 0 < d') (h' : F64.ofRat (d' * 10 ^ e') = .fin q) :
    |d * 10 ^ e - q| ≤ |d' * 10 ^ e' - q| := by
  obtain ⟨b1, b2⟩ := tried_bounds hp (Int.log 10 q + 1 - n)
  have hs := decimal_side hp e' hn hd
  have ht := tried_reads hq hp hn hd h0 h'
  unfold decimalOf at h
  dsimp only at h
  set E := Int.log 10 q + 1 - (n : ℤ)
  clear_value E
  have hP : (0 : ℚ) < 10 ^ E := zpow_pos (by norm_num) E
  split at h
  · rw [Option.some.injEq, Prod.mk.injEq] at h
    obtain ⟨rfl, he⟩ := h
    rw [← he]
    have s0 : 0 ≤ ⌊q / 10 ^ E⌋ := Int.floor_nonneg.mpr (div_nonneg hp.le hP.le)
    have c1 : ((⌊q / 10 ^ E⌋.toNat : ℕ) : ℚ) = ⌊q / 10 ^ E⌋ := by
      exact_mod_cast Int.toNat_of_nonneg s0
    have c2 : (((⌊q / 10 ^ E⌋ + 1).toNat : ℕ) : ℚ) = ⌊q / 10 ^ E⌋ + 1 := by
      exact_mod_cast Int.toNat_of_nonneg (by omega : 0 ≤ ⌊q / 10 ^ E⌋ + 1)
    have c3 : (((roundEven (q / 10 ^ E)).toNat : ℕ) : ℚ) = roundEven (q / 10 ^ E) := by
      exact_mod_cast Int.toNat_of_nonneg (s0.trans (roundEven_bounds _).1)
    rw [c1, c2] at hs
    rw [c3]
    have hx : q = q / 10 ^ E * 10 ^ E := (div_mul_cancel₀ _ hP.ne').symm
    have e1 : ∀ z : ℚ, z * 10 ^ E - q = (z - q / 10 ^ E) * 10 ^ E := by
      intro z
      rw [sub_mul, ← hx]
    have f1 := Int.floor_le (q / 10 ^ E)
    have f2 := (Int.lt_floor_add_one (q / 10 ^ E)).le
    have near : |(roundEven (q / 10 ^ E) : ℚ) - q / 10 ^ E| ≤ q / 10 ^ E - ⌊q / 10 ^ E⌋ ∧
        |(roundEven (q / 10 ^ E) : ℚ) - q / 10 ^ E| ≤ ⌊q / 10 ^ E⌋ + 1 - q / 10 ^ E := by
      unfold roundEven
      split_ifs with g1 g2 g3
      · rw [abs_sub_comm, abs_of_nonneg (by linarith)]
        constructor <;> linarith
      · push_cast
        rw [abs_of_nonneg (by linarith)]
        constructor <;> linarith
      · rw [abs_sub_comm, abs_of_nonneg (by linarith)]
        constructor <;> linarith
      · push_cast
        rw [abs_of_nonneg (by linarith)]
        constructor <;> linarith
    rw [e1, abs_mul, abs_of_pos hP]
    rcases hs with ⟨h1, h2⟩ | ⟨h1, h2⟩
    · refine le_trans ?_ (neg_le_abs _)
      rw [neg_sub]
      calc _ ≤ (q / 10 ^ E - ⌊q / 10 ^ E⌋) * 10 ^ E := mul_le_mul_of_nonneg_right near.1 hP.le
        _ = q - ⌊q / 10 ^ E⌋ * 10 ^ E := by rw [sub_mul, ← hx]
        _ ≤ _ := sub_le_sub_left h2 q
    · refine le_trans ?_ (le_abs_self _)
      calc _ ≤ (⌊q / 10 ^ E⌋ + 1 - q / 10 ^ E) * 10 ^ E := mul_le_mul_of_nonneg_right near.2 hP.le
        _ = (⌊q / 10 ^ E⌋ + 1) * 10 ^ E - q := by rw [sub_mul _ (q / 10 ^ E), ← hx]
        _ ≤ _ := sub_le_sub_right h2 q
  · rename_i g1 g2
    cases h
    rcases ht with ⟨h1, -⟩ | ⟨-, h2⟩
    · rcases hs with ⟨-, h2⟩ | ⟨h2, -⟩
      · rw [abs_sub_comm _ q, abs_sub_comm _ q, abs_of_nonneg (by linarith), abs_of_nonneg (by linarith)]
        linarith
      · linarith
    · rw [g2] at h2; cases h2
  · rename_i g1 g2
    cases h
    rcases ht with ⟨-, h2⟩ | ⟨h1, -⟩
    · rw [g1] at h2; cases h2
    · rcases hs with ⟨h2, -⟩ | ⟨-, h2⟩
      · linarith
      · rw [abs_of_nonneg (by linarith), abs_of_nonneg (by linarith)]
        linarith
  · cases h

theorem shortestFrom_some {q : ℚ} {m : ℕ} (h : ∃ r, decimalOf q m = some r) : ∀ {fuel n : ℕ}, n ≤ m → m < n + fuel →
    ∃ k r, n ≤ k ∧ k ≤ m ∧ decimalOf q k = some r ∧ shortestFrom q fuel n = some r ∧
      ∀ j, n ≤ j → j < k → decimalOf q j = none := by
  intro fuel
  induction fuel with
  | zero => intro n h1 h2; omega
  | succ f ih =>
    intro n h1 h2
    unfold shortestFrom
    cases hc : decimalOf q n with
    | some r => exact ⟨n, r, le_rfl, h1, hc, rfl, fun j _ _ => by omega⟩
    | none =>
      have hne : n ≠ m := by
        rintro rfl
        obtain ⟨r, hr⟩ := h
        rw [hc] at hr
        cases hr
      obtain ⟨k, r, k1, k2, k3, k4, k5⟩ := ih (n := n + 1) (by omega) (by omega)
      refine ⟨k, r, by omega, k2, k3, k4, fun j hj hk => ?_⟩
      rcases eq_or_lt_of_le hj with rfl | hj
      · exact hc
      · exact k5 j hj hk

/-- 1383 digits are enough for every `float64`. -/
theorem decimalOf_long {q : ℚ} (hq : F64.ofRat q = .fin q) (hp : 0 < q) : ∃ r, decimalOf q 1383 = some r := by
  obtain ⟨hs, -⟩ := F64.able_form hq
  obtain ⟨z, hz⟩ := mem_dyadics.mp (F64.able_grid hq)
  rw [abs_of_pos hp] at hs
  have hl : Int.log 10 q ≤ 308 := by
    have h1 : q < ((10 : ℕ) : ℚ) ^ (309 : ℤ) := by
      refine hs.trans ?_
      have : (2 : ℕ) ^ 1024 < 10 ^ 309 := by decide +kernel
      exact_mod_cast this
    have := (Int.lt_zpow_iff_log_lt (b := 10) (by norm_num) hp).mp h1
    omega
  obtain ⟨m, hm⟩ := Int.eq_ofNat_of_zero_le (a := -(Int.log 10 q + 1 - (1383 : ℕ)) - 1074) (by push_cast; omega)
  have hE : Int.log 10 q + 1 - ((1383 : ℕ) : ℤ) = -((m + 1074 : ℕ) : ℤ) := by push_cast at hm ⊢; omega
  have hi : q / 10 ^ (Int.log 10 q + 1 - ((1383 : ℕ) : ℤ)) = ((z * 10 ^ m * 5 ^ 1074 : ℤ) : ℚ) := by
    rw [hE, zpow_neg, div_inv_eq_mul, zpow_natCast, hz, pow_add, show (10 : ℚ) ^ 1074 = 2 ^ 1074 * 5 ^ 1074 by
      rw [← mul_pow]; norm_num]
    have : (2 : ℚ) ^ 1074 ≠ 0 := pow_ne_zero _ (by norm_num)
    push_cast
    generalize (2 : ℚ) ^ 1074 = w at *
    generalize (5 : ℚ) ^ 1074 = v at *
    rw [div_mul_eq_mul_div, div_eq_iff this]
    ring
  apply decimalOf_of
  left
  refine decide_eq_true ?_
  have h0 : 0 ≤ z * 10 ^ m * 5 ^ 1074 := by
    have : (0 : ℚ) ≤ ((z * 10 ^ m * 5 ^ 1074 : ℤ) : ℚ) := hi ▸ div_nonneg hp.le (zpow_nonneg (by norm_num) _)
    exact_mod_cast this
  have e1 : ((⌊q / 10 ^ (Int.log 10 q + 1 - ((1383 : ℕ) : ℤ))⌋.toNat : ℕ) : ℚ) = q / 10 ^ (Int.log 10 q + 1 - ((1383 : ℕ) : ℤ)) := by
    rw [hi, Int.floor_intCast]
    exact_mod_cast Int.toNat_of_nonneg h0
  rw [e1, div_mul_cancel₀ _ (zpow_ne_zero _ (by norm_num))]
  exact hq

/-- The decimal that is printed reads as the number, none with fewer digits does, and none with as few is nearer. -/
theorem shortest_spec {q : ℚ} (hq : F64.ofRat q = .fin q) (hp : 0 < q) :
    ∃ d e, shortestFrom q 1400 1 = some (d, e) ∧ F64.ofRat (d * 10 ^ e) = .fin q ∧ ∃ n : ℕ, 0 < n ∧ d ≤ 10 ^ n ∧
      ∀ (d' : ℕ) (e' : ℤ), 0 < d' → F64.ofRat (d' * 10 ^ e') = .fin q →
        10 ^ (n - 1) ≤ d' ∧ (d' ≤ 10 ^ n → |d * 10 ^ e - q| ≤ |d' * 10 ^ e' - q|) := by
  obtain ⟨k, ⟨d, e⟩, k1, -, k3, k4, k5⟩ := shortestFrom_some (decimalOf_long hq hp) (fuel := 1400) (n := 1) (by omega) (by omega)
  refine ⟨d, e, k4, (decimalOf_reads k3).1, k, k1, decimalOf_size k3, fun d' e' h0 h =>
    ⟨?_, fun hd => decimalOf_nearest hq hp k1 k3 hd h0 h⟩⟩
  by_contra hc
  rw [not_le] at hc
  have hk : 0 < k - 1 := by
    rcases Nat.eq_zero_or_pos (k - 1) with h1 | h1
    · rw [h1, pow_zero] at hc; omega
    · exact h1
  obtain ⟨r, hr⟩ := decimalOf_some hq hp hk hc.le h0 h
  rw [k5 (k - 1) hk (by omega)] at hr
  cases hr

/-! ## The text of a number -/

theorem roundEven_neg (q : ℚ) : roundEven (-q) = -roundEven q := by
  by_cases hz : (⌊q⌋ : ℚ) = q
  · rw [← hz, roundEven_int, ← Int.cast_neg, roundEven_int]
  · have hc : ⌊-q⌋ = -⌊q⌋ - 1 := by
      rw [Int.floor_eq_iff]
      have h1 := lt_of_le_of_ne (Int.floor_le q) hz
      have h2 := Int.lt_floor_add_one q
      push_cast
      constructor <;> linarith
    unfold roundEven
    rw [hc]
    push_cast
    split_ifs <;> first | omega | (exfalso; linarith)

theorem F64.ofRat_neg {q r : ℚ} (h : F64.ofRat q = .fin r) : F64.ofRat (-q) = .fin (-r) := by
  have e : round53 (-q) = -round53 q := by
    unfold round53 lastBit
    rw [abs_neg, neg_div, roundEven_neg]
    push_cast
    ring
  unfold F64.ofRat at h ⊢
  rw [e, abs_neg]
  split at h
  · rename_i hs
    rw [if_pos hs]
    injection h with h
    rw [h]
  · cases h

/-- The characters in the text of a finite number. -/
def isDecChar (a : Char) : Bool := a.isDigit || a == '.' || a == 'e' || a == '-' || a == '+'

theorem toDigits_cons (n : ℕ) : ∃ a l, Nat.toDigits 10 n = a :: l ∧ a.isDigit = true ∧ ∀ b ∈ l, b.isDigit = true := by
  obtain ⟨a, l, h⟩ := List.exists_cons_of_ne_nil (Nat.toDigits_ne_nil (n := n) (b := 10))
  exact ⟨a, l, h, toDigits_digit (n := n) (by rw [h]; simp), fun b hb => toDigits_digit (n := n) (by rw [h]; simp [hb])⟩

theorem fmtDec_chars (t : ℤ) (d : ℕ) (e : ℤ) :
    ∃ a l, fmtDec t d e = a :: l ∧ a.isDigit = true ∧ ∀ b ∈ l, isDecChar b = true := by
  have dig : ∀ b : Char, b.isDigit = true → isDecChar b = true := by
    intro b hb
    simp [isDecChar, hb]
  unfold fmtDec
  dsimp only
  obtain ⟨a, l, h, ha, hl⟩ := toDigits_cons (stripZeros (Nat.toDigits 10 d).length d e).1
  rw [h]
  split
  · unfold fmtExp
    refine ⟨a, _, rfl, ha, fun b hb => ?_⟩
    simp only [List.take_zero, List.append_eq, List.nil_append, List.mem_append, List.mem_cons] at hb
    rcases hb with (hb | rfl | rfl | hb) | hb
    · split at hb
      · cases hb
      · rcases List.mem_cons.mp hb with rfl | hb
        · rfl
        · exact dig b (hl b hb)
    · rfl
    · split <;> rfl
    · split at hb
      · rw [List.mem_singleton.mp hb]; rfl
      · cases hb
    · exact dig b (toDigits_digit hb)
  · unfold fmtFix
    split
    · refine ⟨'0', _, rfl, rfl, fun b hb => ?_⟩
      simp only [List.cons_append, List.append_eq, List.mem_cons, List.mem_append, List.mem_replicate] at hb
      rcases hb with rfl | ⟨-, rfl⟩ | rfl | hb
      · rfl
      · rfl
      · exact dig _ ha
      · exact dig b (hl b hb)
    · split
      · refine ⟨a, _, rfl, ha, fun b hb => ?_⟩
        rcases List.mem_append.mp hb with hb | hb
        · exact dig b (hl b hb)
        · rw [(List.mem_replicate.mp hb).2]; rfl
      · rename_i h1 h2
        obtain ⟨j, hj⟩ := Nat.exists_eq_succ_of_ne_zero (n := (((a :: l).length : ℤ) +
          (stripZeros (Nat.toDigits 10 d).length d e).2).toNat) (by omega)
        rw [hj, List.take_succ_cons, List.drop_succ_cons]
        refine ⟨a, _, rfl, ha, fun b hb => ?_⟩
        simp only [List.append_eq, List.mem_append, List.mem_cons] at hb
        rcases hb with hb | rfl | hb
        · exact dig b (hl b (List.mem_of_mem_take hb))
        · rfl
        · exact dig b (hl b (List.mem_of_mem_drop hb))

theorem decimalValue_digit {a : Char} {l : List Char} (h : a.isDigit = true) : decimalValue (a :: l) = unsignedValue (a :: l) := by
  unfold decimalValue
  split
  · rename_i s hs
    injection hs with h1 h2
    subst h1
    cases h
  · rfl

/-- The text of a finite number other than zero. -/
theorem fmtFloat_fin (t : ℤ) {q : ℚ} (hq : F64.ofRat q = .fin q) (h0 : q ≠ 0) : ∃ d e,
    shortestFrom |q| 1400 1 = some (d, e) ∧ fmtFloat t (.fin q) = (if q < 0 then ['-'] else []) ++ fmtDec t d e ∧
    decimalValue (fmtFloat t (.fin q)) = (if q < 0 then -1 else 1) * (d * 10 ^ e) := by
  have hab : F64.ofRat |q| = .fin |q| := by
    rcases abs_choice q with h | h <;> rw [h]
    · exact hq
    · exact F64.ofRat_neg hq
  obtain ⟨d, e, h1, -⟩ := shortest_spec hab (abs_pos.mpr h0)
  obtain ⟨a, l, h2, ha, -⟩ := fmtDec_chars t d e
  have h3 : fmtFloat t (.fin q) = (if q < 0 then ['-'] else []) ++ fmtDec t d e := by
    unfold fmtFloat
    simp only [if_neg h0, h1]
  refine ⟨d, e, h1, h3, ?_⟩
  rw [h3]
  split
  · rw [List.singleton_append, decimalValue, fmtDec_value, neg_one_mul]
  · rw [List.nil_append, h2, decimalValue_digit ha, ← h2, fmtDec_value, one_mul]

/-- C84: the text of a finite `float64` reads back as the same number. -/
theorem float_text_reads (t : ℤ) {x : F64} (h : x.IsFloat) : F64.ofRat (decimalValue (fmtFloat t x)) = x := by
  obtain ⟨q, rfl, hq⟩ := h
  by_cases h0 : q = 0
  · subst h0
    rw [show fmtFloat t (.fin 0) = ['0'] by simp [fmtFloat], show decimalValue ['0'] = 0 by decide +kernel]
    exact hq
  · obtain ⟨d, e, h1, -, h3⟩ := fmtFloat_fin t hq h0
    have hab : F64.ofRat |q| = .fin |q| := by
      rcases abs_choice q with h | h <;> rw [h]
      · exact hq
      · exact F64.ofRat_neg hq
    obtain ⟨d', e', h4, h5, -⟩ := shortest_spec hab (abs_pos.mpr h0)
    rw [h1] at h4
    cases h4
    rw [h3]
    split
    · rename_i hs
      rw [neg_one_mul, F64.ofRat_neg h5, abs_of_neg hs, neg_neg]
    · rename_i hs
      rw [one_mul, h5, abs_of_nonneg (not_lt.mp hs)]

/-- C84: the number printed is `d * 10^e` where `d` has at most as many digits as in any decimal that reads back as the
number, and none that has so few is nearer. -/
theorem float_text_shortest (t : ℤ) {q : ℚ} (h : F64.IsFloat (.fin q)) (h0 : q ≠ 0) :
    ∃ (d : ℕ) (e : ℤ), |decimalValue (fmtFloat t (.fin q))| = d * 10 ^ e ∧
      ∀ (d' : ℕ) (e' : ℤ), 0 < d' → F64.ofRat (d' * 10 ^ e') = .fin |q| → (∀ n, d' < 10 ^ n → d < 10 ^ n) ∧
        ((∀ n, d < 10 ^ n → d' < 10 ^ n) → |d * 10 ^ e - (|q|)| ≤ |d' * 10 ^ e' - (|q|)|) := by
  obtain ⟨_, hx, hq⟩ := h
  cases hx
  have hab : F64.ofRat |q| = .fin |q| := by
    rcases abs_choice q with h | h <;> rw [h]
    · exact hq
    · exact F64.ofRat_neg hq
  obtain ⟨d, e, h1, -, h3⟩ := fmtFloat_fin t hq h0
  obtain ⟨d', e', h4, h5, n, hn0, h7, h8⟩ := shortest_spec hab (abs_pos.mpr h0)
  rw [h1] at h4
  cases h4
  have hd : d ≠ 0 := by
    rintro rfl
    rw [Nat.cast_zero, zero_mul] at h5
    have : F64.ofRat 0 = .fin 0 := by decide +kernel
    rw [this] at h5
    injection h5 with h5
    exact h0 (abs_eq_zero.mp h5.symm)
  obtain ⟨hf, hfd, -⟩ := stripZeros_spec e hd (toDigits_bound d)
  rw [← stripZeros_value (Nat.toDigits 10 d).length d e] at h3 h8
  generalize (stripZeros (Nat.toDigits 10 d).length d e).1 = f at *
  generalize (stripZeros (Nat.toDigits 10 d).length d e).2 = g at *
  have hfn : f < 10 ^ n := by
    rcases lt_or_eq_of_le (hfd.trans h7) with h | h
    · exact h
    · exact absurd (h ▸ dvd_pow_self 10 hn0.ne') hf
  refine ⟨f, g, ?_, fun d' e' p h => ?_⟩
  · have hn : (0 : ℚ) ≤ f * 10 ^ g := mul_nonneg (by positivity) (zpow_nonneg (by norm_num) _)
    rw [h3]
    split
    · rw [neg_one_mul, abs_neg, abs_of_nonneg hn]
    · rw [one_mul, abs_of_nonneg hn]
  · obtain ⟨g1, g2⟩ := h8 d' e' p h
    refine ⟨fun m hm => hfn.trans_le (Nat.pow_le_pow_right (by norm_num) ?_), fun hl => g2 (hl n hfn).le⟩
    have := (Nat.pow_lt_pow_iff_right (a := 10) (by norm_num)).mp (g1.trans_lt hm)
    omega

/-- The characters of a finite number. -/
theorem fmtFloat_chars (t : ℤ) {x : F64} (h : x.IsFloat) :
    fmtFloat t x ≠ [] ∧ ∀ a ∈ fmtFloat t x, isDecChar a = true := by
  obtain ⟨q, rfl, hq⟩ := h
  by_cases h0 : q = 0
  · subst h0
    rw [show fmtFloat t (.fin 0) = ['0'] by simp [fmtFloat]]
    exact ⟨by simp, fun a ha => by rw [List.mem_singleton.mp ha]; rfl⟩
  · obtain ⟨d, e, -, h2, -⟩ := fmtFloat_fin t hq h0
    obtain ⟨a, l, h3, ha, hl⟩ := fmtDec_chars t d e
    rw [h2, h3]
    refine ⟨by simp, fun b hb => ?_⟩
    rcases List.mem_append.mp hb with hb | hb
    · split at hb
      · rw [List.mem_singleton.mp hb]; rfl
      · cases hb
    · rcases List.mem_cons.mp hb with rfl | hb
      · simp [isDecChar, ha]
      · exact hl b hb

/-- The values that a `float64` can have. -/
def F64.Valid (x : F64) : Prop := x = .nan ∨ (∃ s, x = .inf s) ∨ x.IsFloat

/-- C84: different `float64` values, `NaN` and the infinities included, have different texts. -/
theorem float_text_inj (t : ℤ) {x y : F64} (hx : x.Valid) (hy : y.Valid) (h : fmtFloat t x = fmtFloat t y) : x = y := by
  have key : ∀ {x y : F64}, x.IsFloat → ¬y.IsFloat → y.Valid → fmtFloat t x ≠ fmtFloat t y := by
    intro x y fx ny hy h
    have hc := (fmtFloat_chars t fx).2
    rw [h] at hc
    rcases hy with rfl | ⟨s, rfl⟩ | hy
    · exact absurd (hc 'N' (by simp [fmtFloat])) (by decide)
    · cases s
      · exact absurd (hc 'I' (by simp [fmtFloat])) (by decide)
      · exact absurd (hc 'I' (by simp [fmtFloat])) (by decide)
    · exact ny hy
  by_cases fx : x.IsFloat
  · by_cases fy : y.IsFloat
    · rw [← float_text_reads t fx, h, float_text_reads t fy]
    · exact absurd h (key fx fy hy)
  · by_cases fy : y.IsFloat
    · exact absurd h.symm (key fy fx hx)
    · rcases hx with rfl | ⟨s, rfl⟩ | hx
      · rcases hy with rfl | ⟨u, rfl⟩ | hy
        · rfl
        · cases u <;> simp [fmtFloat] at h
        · exact absurd hy fy
      · rcases hy with rfl | ⟨u, rfl⟩ | hy
        · cases s <;> simp [fmtFloat] at h
        · cases s <;> cases u <;> simp [fmtFloat] at h ⊢
        · exact absurd hy fy
      · exact absurd hx fx

/-! ## No zeros that say nothing -/

/-- The digits after the point. -/
def fraction (s : List Char) : List Char := ((s.dropWhile (· != '.')).drop 1).takeWhile Char.isDigit

/-- No zero ends the digits after a point, there are digits after a point, and no zero but a single one is in front. -/
def Tidy (s : List Char) : Prop :=
  ('.' ∈ s → ∃ g a, fraction s = g ++ [a] ∧ a ≠ '0') ∧
  ∀ l, s = '0' :: l → l = [] ∨ ∃ r, l = '.' :: r

theorem toDigits_last {n : ℕ} (h : ¬10 ∣ n) : ∃ g a, Nat.toDigits 10 n = g ++ [a] ∧ a ≠ '0' := by
  rcases List.eq_nil_or_concat (Nat.toDigits 10 n) with h1 | ⟨g, a, h1⟩
  · exact absurd h1 Nat.toDigits_ne_nil
  · rw [List.concat_eq_append] at h1
    refine ⟨g, a, h1, ?_⟩
    rintro rfl
    apply h
    rw [← Nat.ofDigitChars_ten_toDigits (n := n), h1, Nat.ofDigitChars_append, Nat.ofDigitChars_cons, Nat.ofDigitChars_nil]
    exact ⟨_, rfl⟩

theorem toDigits_first {n : ℕ} (h : n ≠ 0) : ∃ a l, Nat.toDigits 10 n = a :: l ∧ a ≠ '0' := by
  induction n using Nat.strong_induction_on with
  | _ n ih =>
    by_cases hn : n < 10
    · have : n = 1 ∨ n = 2 ∨ n = 3 ∨ n = 4 ∨ n = 5 ∨ n = 6 ∨ n = 7 ∨ n = 8 ∨ n = 9 := by omega
      rcases this with rfl | rfl | rfl | rfl | rfl | rfl | rfl | rfl | rfl <;> exact ⟨_, _, rfl, by decide⟩
    · obtain ⟨a, l, h1, h2⟩ := ih (n / 10) (by omega) (by omega)
      rw [Nat.toDigits_of_base_le (by norm_num) (by omega), h1]
      exact ⟨a, _, rfl, h2⟩

theorem fraction_eq {i f x : List Char} (hi : ∀ a ∈ i, a ≠ '.') (hf : ∀ a ∈ f, a.isDigit = true)
    (hx : x = [] ∨ ∃ y, x = 'e' :: y) : fraction (i ++ '.' :: (f ++ x)) = f := by
  unfold fraction
  rw [(takeWhile_split (p := (· != '.')) (fun a ha => bne_iff_ne.mpr (hi a ha)) (by decide)).2, List.drop_one, List.tail_cons]
  rcases hx with rfl | ⟨y, rfl⟩
  · rw [List.append_nil, (takeWhile_all hf).1]
  · exact (takeWhile_split hf (by decide)).1

theorem drop_last {g : List Char} {a : Char} {k : ℕ} (h : k ≤ g.length) : (g ++ [a]).drop k = g.drop k ++ [a] :=
  List.drop_append_of_le_length h

theorem fmtDec_tidy (t : ℤ) {d : ℕ} (h0 : d ≠ 0) (e : ℤ) : Tidy (fmtDec t d e) := by
  obtain ⟨hs, -, hs0⟩ := stripZeros_spec e h0 (toDigits_bound d)
  unfold fmtDec
  dsimp only
  generalize (stripZeros (Nat.toDigits 10 d).length d e).1 = n at *
  generalize (stripZeros (Nat.toDigits 10 d).length d e).2 = z at *
  obtain ⟨g, c, hg, hc⟩ := toDigits_last hs
  obtain ⟨a, l, hl, ha⟩ := toDigits_first hs0
  have hd : ∀ b ∈ Nat.toDigits 10 n, b.isDigit = true := fun b hb => toDigits_digit hb
  have nd : ∀ b : Char, b.isDigit = true → b ≠ '.' := by
    rintro b hb rfl
    cases hb
  have suffix : ∀ k, k < (Nat.toDigits 10 n).length → ∃ g', (Nat.toDigits 10 n).drop k = g' ++ [c] := by
    intro k hk
    rw [hg] at hk ⊢
    rw [List.length_append, List.length_singleton] at hk
    exact ⟨_, drop_last (by omega)⟩
  split
  · constructor
    · intro hp
      by_cases h1 : (Nat.toDigits 10 n).length ≤ 1
      · exfalso
        unfold fmtExp at hp
        rw [if_pos h1, List.append_nil] at hp
        simp only [List.append_assoc, List.cons_append, List.mem_append, List.mem_cons] at hp
        rcases hp with hp | hp | hp | hp | hp
        · exact nd _ (hd _ (List.mem_of_mem_take hp)) rfl
        · cases hp
        · split at hp <;> cases hp
        · split at hp
          · cases List.mem_singleton.mp hp
          · cases hp
        · exact nd _ (toDigits_digit hp) rfl
      · obtain ⟨g', hg'⟩ := suffix 1 (by omega)
        refine ⟨g', c, ?_, hc⟩
        unfold fmtExp
        rw [if_neg h1]
        simp only [List.append_assoc, List.cons_append]
        rw [← hg']
        exact fraction_eq (fun b hb => nd b (hd b (List.mem_of_mem_take hb))) (fun b hb => hd b (List.mem_of_mem_drop hb))
          (.inr ⟨_, rfl⟩)
    · intro r hr
      unfold fmtExp at hr
      rw [hl] at hr
      exact absurd (List.cons.inj hr).1 ha
  · unfold fmtFix
    split
    · constructor
      · intro _
        refine ⟨List.replicate (-(↑(Nat.toDigits 10 n).length + z)).toNat '0' ++ g, c, ?_, hc⟩
        rw [List.cons_append, List.cons_append]
        have := fraction_eq (i := ['0']) (f := List.replicate (-(↑(Nat.toDigits 10 n).length + z)).toNat '0' ++ Nat.toDigits 10 n)
          (x := []) (by simp) (by
            intro b hb
            rcases List.mem_append.mp hb with hb | hb
            · rw [(List.mem_replicate.mp hb).2]; rfl
            · exact hd b hb) (.inl rfl)
        rw [List.append_nil] at this
        refine this.trans ?_
        rw [List.append_assoc, ← hg]
      · intro r hr
        exact .inr ⟨_, (List.cons.inj hr).2.symm⟩
    · split
      · constructor
        · intro hp
          exfalso
          rcases List.mem_append.mp hp with hp | hp
          · exact nd _ (hd _ hp) rfl
          · cases (List.mem_replicate.mp hp).2
        · intro r hr
          rw [hl] at hr
          exact absurd (List.cons.inj hr).1 ha
      · rename_i h1 h2
        constructor
        · intro _
          obtain ⟨g', hg'⟩ := suffix _ (not_le.mp h2)
          refine ⟨g', c, ?_, hc⟩
          rw [← hg']
          have := fraction_eq (i := (Nat.toDigits 10 n).take (↑(Nat.toDigits 10 n).length + z).toNat)
            (f := (Nat.toDigits 10 n).drop (↑(Nat.toDigits 10 n).length + z).toNat) (x := [])
            (fun b hb => nd b (hd b (List.mem_of_mem_take hb))) (fun b hb => hd b (List.mem_of_mem_drop hb)) (.inl rfl)
          rwa [List.append_nil] at this
        · intro r hr
          obtain ⟨j, hj⟩ := Nat.exists_eq_succ_of_ne_zero (n := (((Nat.toDigits 10 n).length : ℤ) + z).toNat) (by omega)
          rw [hj, hl, List.take_succ_cons] at hr
          exact absurd (List.cons.inj hr).1 ha

/-- C84: apart from the sign, the text of a finite `float64` has no zeros that say nothing. -/
theorem float_text_tidy (t : ℤ) {x : F64} (h : x.IsFloat) :
    Tidy (fmtFloat t x) ∨ ∃ s, fmtFloat t x = '-' :: s ∧ Tidy s := by
  obtain ⟨q, rfl, hq⟩ := h
  by_cases h0 : q = 0
  · subst h0
    rw [show fmtFloat t (.fin 0) = ['0'] by simp [fmtFloat]]
    exact .inl ⟨by simp, fun l hl => .inl (List.cons.inj hl).2.symm⟩
  · have hab : F64.ofRat |q| = .fin |q| := by
      rcases abs_choice q with h | h <;> rw [h]
      · exact hq
      · exact F64.ofRat_neg hq
    obtain ⟨d, e, h1, h2, -⟩ := fmtFloat_fin t hq h0
    obtain ⟨d', e', h4, h5, -⟩ := shortest_spec hab (abs_pos.mpr h0)
    rw [h1] at h4
    cases h4
    have hd : d ≠ 0 := by
      rintro rfl
      rw [Nat.cast_zero, zero_mul] at h5
      have : F64.ofRat 0 = .fin 0 := by decide +kernel
      rw [this] at h5
      injection h5 with h5
      exact h0 (abs_eq_zero.mp h5.symm)
    rw [h2]
    split
    · exact .inr ⟨_, rfl, fmtDec_tidy t hd e⟩
    · exact .inl (fmtDec_tidy t hd e)

/-! ## Witnesses -/

/-- A third is a `float64` that needs sixteen digits. -/
theorem third_float : F64.IsFloat (F64.ofRat (1 / 3)) :=
  ⟨round53 (1 / 3), by decide +kernel, by decide +kernel⟩

example : fmtFloat 21 (F64.ofRat (1 / 3)) = "0.3333333333333333".toList ∧
    fmtFloat 21 (F64.ofRat (-5 / 2)) = "-2.5".toList ∧ fmtFloat 21 (F64.ofRat (10 ^ 23)) = "1e+23".toList ∧
    fmtFloat 6 (F64.ofRat 1000000) = "1e+06".toList ∧ fmtFloat 21 (F64.ofRat (1 / 100000)) = "1e-05".toList ∧
    fmtFloat 21 (.inf true) = "-Inf".toList := by decide +kernel

example : F64.ofRat (decimalValue (fmtFloat 21 (F64.ofRat (1 / 3)))) = F64.ofRat (1 / 3) := float_text_reads 21 third_float

/-- C84 is about `float64` values and not about the number that was meant: the sum of 0.1 and 0.2 is not printed as 0.3,
and the number printed is not the value of the variable but a decimal that reads as it. -/
theorem float_text_exact_false :
    fmtFloat 21 (GoNum.add (F64.ofRat (1 / 10)) (F64.ofRat (1 / 5))) = "0.30000000000000004".toList ∧
    decimalValue (fmtFloat 21 (F64.ofRat (1 / 3))) ≠ (F64.ofRat (1 / 3)).val := by decide +kernel

end Verif
