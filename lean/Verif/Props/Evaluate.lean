import Verif.Props.Constr
import Verif.Props.Convert
import Verif.Lemmas.RoundF64
import Mathlib.Algebra.Order.Ring.Pow

/-!
# C94: giving numbers to all variables evaluates term by term

`SubstituteAccordingTo` with a number for every variable of an expression of any degree returns a number: the
terms are evaluated one after the other, each as the coefficient times the powers of its variables in the order
in which they are stored, each power as `1*x*x*...`, and added from zero.  This holds in every arithmetic, for
NaN and infinities too.  For `float64` the distance to the exact value is at most that of one rounding per
multiplication and addition.
-/

set_option linter.unusedSectionVars false

namespace Verif

/-! ## Specification -/

section Spec
variable {R : Type} [GoNum R]

/-- `1*x*x*...*x` with `n` multiplications. -/
def naivePow (x : R) : ℕ → R
  | 0 => GoNum.one
  | n + 1 => GoNum.mul (naivePow x n) x

/-- The coefficient times the powers, from left to right. -/
def Mono.naive (σ : Var R → R) (m : Mono R) : R :=
  (m.vars.zip m.exps).foldl (fun acc ve => GoNum.mul acc (naivePow (σ ve.1) ve.2.toNat)) m.coeff

/-- The terms added from left to right, from zero. -/
def Scalar.naive (σ : Var R → R) : Scalar R → R
  | .k c => c
  | .var v => σ v
  | .mono m => m.naive σ
  | .poly p => p.monos.foldl (fun acc m => GoNum.add acc (m.naive σ)) GoNum.zero

end Spec

/-! ## The calls -/

section Calls
variable {R : Type} [GoNum R]

/-- The map gives the number `σ v` to each variable `v` of `e`: its entries are valid, its keys are different
variables, and the variables have no NaN bounds (Go finds no such key in a map). -/
structure Gives (sm : SubMap R) (σ : Var R → R) (e : Scalar R) : Prop where
  ok : ∀ kv ∈ sm, kv.1.OK ∧ kv.2.Canon
  keys : (sm.map (·.1.id)).Nodup
  all : ∀ v, e.Mentions v → (v, Scalar.k (σ v)) ∈ sm
  bounds : ∀ v, e.Mentions v → GoNum.feq v.lower v.lower = true ∧ GoNum.feq v.upper v.upper = true

private theorem lookup_entry {sm : SubMap R} (hk : (sm.map (·.1.id)).Nodup) {v : Var R} {s : Scalar R}
    (h : (v, s) ∈ sm) (hv : v.keyEq v = true) : sm.lookup v = some s := by
  induction sm with
  | nil => simp at h
  | cons kv l ih =>
    rw [List.map_cons, List.nodup_cons] at hk
    unfold SubMap.lookup
    rw [List.find?_cons]
    rcases List.mem_cons.mp h with rfl | h
    · simp only [hv, Option.map_some]
    · have hne : v.keyEq kv.1 = false := by
        have : v.id ≠ kv.1.id := fun e => hk.1 (by rw [← e]; exact List.mem_map.mpr ⟨_, h, rfl⟩)
        simp [Var.keyEq, this]
      simp only [hne]
      exact ih hk.2 h

private theorem gives_var {sm : SubMap R} {σ : Var R → R} {e : Scalar R} (h : Gives sm σ e) {v : Var R} (hv : v.OK)
    (hm : e.Mentions v) : v.substMap sm = .ok (.k (σ v)) := by
  have hq : v.keyEq v = true := by
    obtain ⟨h1, h2⟩ := h.bounds v hm
    simp [Var.keyEq, h1, h2]
  unfold Var.substMap
  rw [hv.check, Go.ok_bind, checkSubMap_ok h.ok, Go.ok_bind, lookup_entry h.keys (h.all v hm) hq]
  rfl

private theorem mul_naivePow (x : R) (n : ℕ) (k : ℕ) :
    powLoop (.k x) n (.k (naivePow x k)) = .ok (.k (naivePow x (k + n))) := by
  induction n generalizing k with
  | zero => rfl
  | succ n ih =>
    rw [powLoop, show (Scalar.k (naivePow x k)).mul (.k x) = .ok (.k (naivePow x (k + 1))) from rfl, Go.ok_bind, ih,
      show k + 1 + n = k + (n + 1) by omega]

private theorem power_number (x : R) {n : Int} (hn : 0 ≤ n) : (Scalar.k x).power n = .ok (.k (naivePow x n.toNat)) := by
  unfold Scalar.power
  have : ¬ n < 0 := by omega
  rw [show (Scalar.k x).check = .ok () from rfl, Go.ok_bind, if_neg this]
  have := mul_naivePow x n.toNat 0
  rwa [Nat.zero_add] at this

private theorem gives_mono {sm : SubMap R} {σ : Var R → R} {e : Scalar R} (h : Gives sm σ e) {m : Mono R} (hm : m.Canon)
    (hme : ∀ v ∈ m.vars, e.Mentions v) : m.substMap sm = .ok (.k (m.naive σ)) := by
  unfold Mono.substMap Mono.naive
  rw [hm.check, Go.ok_bind, checkSubMap_ok h.ok, Go.ok_bind]
  have hz : ∀ ve ∈ m.vars.zip m.exps, ve.1.OK ∧ e.Mentions ve.1 ∧ 0 ≤ ve.2 := fun ve hve =>
    ⟨hm.ok _ (List.of_mem_zip hve).1, hme _ (List.of_mem_zip hve).1, (hm.pos _ (List.of_mem_zip hve).2).le⟩
  generalize m.vars.zip m.exps = l at hz
  generalize m.coeff = c
  induction l generalizing c with
  | nil => rfl
  | cons ve l ih =>
    obtain ⟨h1, h2, h3⟩ := hz ve (by simp)
    rw [List.foldlM_cons, gives_var h h1 h2, Go.ok_bind, power_number _ h3, Go.ok_bind,
      show (Scalar.k c).mul (.k (naivePow (σ ve.1) ve.2.toNat)) =
        .ok (.k (GoNum.mul c (naivePow (σ ve.1) ve.2.toNat))) from rfl, Go.ok_bind, List.foldl_cons]
    exact ih (fun ve hve => hz ve (by simp [hve])) _

/-- C94: giving numbers to all variables returns the value computed term by term. -/
theorem substMap_naive {e : Scalar R} {sm : SubMap R} {σ : Var R → R} (he : e.Canon) (h : Gives sm σ e) :
    e.substMap sm = .ok (.k (e.naive σ)) := by
  cases e with
  | k c => rfl
  | var v => exact gives_var h he rfl
  | mono m => exact gives_mono h he fun v hv => hv
  | poly p =>
    have hp : p.Canon := he
    show p.substMap sm = .ok (.k (p.monos.foldl (fun acc m => GoNum.add acc (m.naive σ)) GoNum.zero))
    unfold Poly.substMap
    rw [hp.check, Go.ok_bind, checkSubMap_ok h.ok, Go.ok_bind]
    have hz : ∀ m ∈ p.monos, m.substMap sm = .ok (.k (m.naive σ)) := fun m hm =>
      gives_mono h (hp.all m hm) fun v hv => ⟨m, hm, hv⟩
    generalize p.monos = l at hz
    generalize (GoNum.zero : R) = c
    induction l generalizing c with
    | nil => rfl
    | cons m l ih =>
      rw [List.foldlM_cons, hz m (by simp), Go.ok_bind, show (Scalar.k c).plus (.k (m.naive σ)) =
        .ok (.k (GoNum.add c (m.naive σ))) from rfl, Go.ok_bind, List.foldl_cons]
      exact ih (fun m hm => hz m (by simp [hm])) _

/-- C94: a constraint becomes the comparison of the two numbers. -/
theorem substMap_con_naive {c : SCon R} {sm : SubMap R} {σ : Var R → R} (hc : c.Canon) (hl : Gives sm σ c.lhs)
    (hr : Gives sm σ c.rhs) : c.substMap sm = .ok ⟨.k (c.lhs.naive σ), .k (c.rhs.naive σ), c.sense⟩ := by
  have h : c.check = .ok () := by
    unfold SCon.check
    rw [(good_of_univ hc.lhs).check, (good_of_univ hc.rhs).check, hc.sense.check]
    rfl
  unfold SCon.substMap
  rw [h, Go.ok_bind, substMap_naive hc.lhs hl, Go.ok_bind, substMap_naive hc.rhs hr]
  rfl

end Calls

/-- C94: the iteration order of the map has no influence on the number. -/
theorem substMap_naive_order {R : Type} [GoNum R] {e : Scalar R} {sm sm' : SubMap R} {σ : Var R → R} (he : e.Canon)
    (h : Gives sm σ e) (hp : sm.Perm sm') : e.substMap sm' = e.substMap sm := by
  rw [substMap_naive he h, substMap_naive he (sm := sm') (σ := σ)
    ⟨fun kv hkv => h.ok kv (hp.mem_iff.mpr hkv), (hp.map _).nodup_iff.mp h.keys,
      fun v hv => hp.mem_iff.mp (h.all v hv), h.bounds⟩]

/-! ## Rounding -/

/-- The exact number that a finite `float64` stands for. -/
def F64.toRat : F64 → ℚ
  | .fin q => q
  | _ => 0

/-- The exact value of a term. -/
def Mono.exactAt (σ : Var F64 → F64) (m : Mono F64) : ℚ :=
  m.coeff.toRat * ((m.vars.zip m.exps).map fun ve => (σ ve.1).toRat ^ ve.2.toNat).prod

/-- A finite `float64` that is zero or between `2^-p` and `2^p` in absolute value. -/
def F64.Within (p : ℕ) (x : F64) : Prop :=
  ∃ q : ℚ, x = .fin q ∧ F64.Able q ∧ (q = 0 ∨ 1 / 2 ^ p ≤ |q| ∧ |q| ≤ 2 ^ p)

/-- Zero or between `2^-p` and `2^p`. -/
private def InR (p : ℕ) (x : ℚ) : Prop := x = 0 ∨ 1 / 2 ^ p ≤ |x| ∧ |x| ≤ 2 ^ p

private theorem InR.mul {p q : ℕ} {x y : ℚ} (hx : InR p x) (hy : InR q y) : InR (p + q) (x * y) := by
  rcases hx with rfl | ⟨h1, h2⟩
  · left; simp
  rcases hy with rfl | ⟨h3, h4⟩
  · left; simp
  right
  rw [abs_mul, pow_add]
  refine ⟨?_, mul_le_mul h2 h4 (abs_nonneg _) (by positivity)⟩
  rw [show (1 : ℚ) / (2 ^ p * 2 ^ q) = 1 / 2 ^ p * (1 / 2 ^ q) by field_simp]
  exact mul_le_mul h1 h3 (by positivity) (abs_nonneg _)

private theorem InR.mono {p q : ℕ} {x : ℚ} (hx : InR p x) (h : p ≤ q) : InR q x := by
  rcases hx with rfl | ⟨h1, h2⟩
  · left; rfl
  right
  have : (2 : ℚ) ^ p ≤ 2 ^ q := pow_le_pow_right₀ (by norm_num) h
  exact ⟨(one_div_le_one_div_of_le (by positivity) this).trans h1, h2.trans this⟩

private theorem InR.pow {p : ℕ} {x : ℚ} (hx : InR p x) (n : ℕ) : InR (p * n) (x ^ n) := by
  induction n with
  | zero => right; simp
  | succ n ih => rw [pow_succ, Nat.mul_succ]; exact ih.mul hx

private abbrev FR := F64.rounding

private theorem u_pow {n : ℕ} (h : n ≤ 2 ^ 50) : (1 + FR.u) ^ n ≤ 5 / 4 := by
  have hu : FR.u = 1 / 2 ^ 53 := rfl
  have h1 : (1 : ℚ) + n * (-FR.u) ≤ (1 + -FR.u) ^ n := one_add_mul_le_pow (by rw [hu]; norm_num) n
  have h2 : ((1 + FR.u) * (1 + -FR.u)) ^ n ≤ 1 := pow_le_one₀ (by rw [hu]; norm_num) (by rw [hu]; norm_num)
  rw [mul_pow] at h2
  have h3 : (n : ℚ) ≤ 2 ^ 50 := by exact_mod_cast h
  have h4 : (7 : ℚ) / 8 ≤ (1 + -FR.u) ^ n := by
    refine le_trans ?_ h1
    rw [hu]
    have : (n : ℚ) * (1 / 2 ^ 53) ≤ 2 ^ 50 * (1 / 2 ^ 53) := mul_le_mul_of_nonneg_right h3 (by norm_num)
    have e : (2 : ℚ) ^ 50 * (1 / 2 ^ 53) = 1 / 8 := by norm_num
    linarith
  have h5 := one_le_pow_u FR n
  nlinarith

/-- Two products that are close to exact values. -/
private theorem near_product {n k : ℕ} {c d : F64} {x y : ℚ} (h : Near FR n c x |x|) (h' : Near FR k d y |y|)
    (hn : n ≤ 2 ^ 50) (hk : k ≤ 2 ^ 50) (hr : InR 1000 (x * y)) :
    Near FR (n + k + 1) (GoNum.mul c d) (x * y) |x * y| := by
  have a1 := one_le_pow_u FR n
  have a2 := one_le_pow_u FR k
  have b1 := u_pow hn
  have b2 := u_pow hk
  have e1 := h.err
  have e2 := h'.err
  have f1 := h.abs_le
  have f2 := h'.abs_le
  set α := (1 + FR.u) ^ n with hα
  set β := (1 + FR.u) ^ k with hβ
  have hx := abs_nonneg x
  have hy := abs_nonneg y
  have hprod : |FR.val c * FR.val d - x * y| ≤ (α * β - 1) * |x * y| := by
    have t : FR.val c * FR.val d - x * y = (FR.val c - x) * FR.val d + x * (FR.val d - y) := by ring
    rw [t, abs_mul x y]
    refine (abs_add_le _ _).trans ?_
    rw [abs_mul, abs_mul]
    have g1 : |FR.val c - x| * |FR.val d| ≤ ((α - 1) * |x|) * (β * |y|) :=
      mul_le_mul e1 f2 (abs_nonneg _) (mul_nonneg (by linarith) hx)
    have g2 : |x| * |FR.val d - y| ≤ |x| * ((β - 1) * |y|) := mul_le_mul_of_nonneg_left e2 hx
    calc _ ≤ ((α - 1) * |x|) * (β * |y|) + |x| * ((β - 1) * |y|) := add_le_add g1 g2
      _ = _ := by ring
  have hab : α * β ≤ 25 / 16 := by nlinarith
  have hxy := abs_nonneg (x * y)
  have hup : |FR.val c * FR.val d| ≤ α * β * |x * y| := by
    have := abs_add_le (FR.val c * FR.val d - x * y) (x * y)
    rw [sub_add_cancel] at this
    linarith
  have hlow : 7 / 16 * |x * y| ≤ |FR.val c * FR.val d| := by
    have := abs_add_le (x * y - FR.val c * FR.val d) (FR.val c * FR.val d)
    rw [sub_add_cancel, abs_sub_comm] at this
    nlinarith
  have hs : FR.Small (FR.val c * FR.val d) := by
    show |FR.val c * FR.val d| ≤ 2 ^ 1023
    have h1 : |x * y| ≤ 2 ^ 1000 := by
      rcases hr with h0 | h0
      · rw [h0, abs_zero]; positivity
      · exact h0.2
    have h2 : (2 : ℚ) ^ 1023 = 2 ^ 1000 * 2 ^ 23 := by rw [← pow_add]
    rw [h2]
    have : (0 : ℚ) < 2 ^ 1000 := by positivity
    generalize (2 : ℚ) ^ 1000 = T at *
    have h3 : α * β * |x * y| ≤ 25 / 16 * T := mul_le_mul hab h1 hxy (by norm_num)
    have h4 : T * (25 / 16) ≤ T * 2 ^ 23 := mul_le_mul_of_nonneg_left (by norm_num) this.le
    rw [mul_comm (25 / 16 : ℚ)] at h3
    exact (hup.trans h3).trans h4
  have hN : FR.Normal (FR.val c * FR.val d) := by
    show F64.Normal _
    rcases hr with h0 | h0
    · right
      rw [h0, abs_zero, mul_zero] at hup
      exact ⟨0, by rw [abs_nonpos_iff.mp hup]; simp⟩
    · left
      refine le_trans ?_ hlow
      have h2 : (2 : ℚ) ^ 1022 = 2 ^ 1000 * 2 ^ 22 := by rw [← pow_add]
      have h3 : (1 : ℚ) / 2 ^ 1022 = 1 / 2 ^ 1000 * (1 / 2 ^ 22) := by rw [h2]; field_simp
      rw [h3]
      have h4 := h0.1
      have : (0 : ℚ) < 1 / 2 ^ 1000 := by positivity
      generalize (1 : ℚ) / 2 ^ 1000 = T at *
      have : T * (1 / 2 ^ 22) ≤ T * (7 / 16) := mul_le_mul_of_nonneg_left (by norm_num) this.le
      linarith
  obtain ⟨r1, r2⟩ := FR.mul h.fin h'.fin hs hN
  refine ⟨r1, ?_, le_refl _⟩
  have hu := FR.u_nonneg
  have t := abs_add_le (FR.val (GoNum.mul c d) - FR.val c * FR.val d) (FR.val c * FR.val d - x * y)
  rw [sub_add_sub_cancel] at t
  rw [pow_succ, pow_add, ← hα, ← hβ]
  have r3 : FR.u * |FR.val c * FR.val d| ≤ FR.u * (α * β * |x * y|) := mul_le_mul_of_nonneg_left hup hu
  calc _ ≤ FR.u * (α * β * |x * y|) + (α * β - 1) * |x * y| := by linarith
    _ = _ := by ring

private theorem one_times {q : ℚ} (h : F64.Able q) : (GoNum.mul GoNum.one (F64.fin q) : F64) = .fin q := by
  show F64.ofRat (1 * q) = _
  rw [one_mul]; exact h

private theorem within_near {p : ℕ} {x : F64} (h : x.Within p) : Near FR 0 x x.toRat |x.toRat| ∧ InR p x.toRat := by
  obtain ⟨q, rfl, h1, h2⟩ := h
  exact ⟨near_self (F := FR) (c := .fin q) ⟨q, rfl, h1⟩, h2⟩

private theorem near_pow {p : ℕ} {x : F64} (h : x.Within p) (n : ℕ) (hp : p * (n + 1) ≤ 1000) (hn : n ≤ 2 ^ 50) :
    Near FR n (naivePow x (n + 1)) (x.toRat ^ (n + 1)) |x.toRat ^ (n + 1)| := by
  obtain ⟨h0, hr⟩ := within_near h
  induction n with
  | zero =>
    obtain ⟨q, rfl, h1, h2⟩ := h
    show Near FR 0 (GoNum.mul GoNum.one (F64.fin q)) _ _
    rw [one_times h1, Nat.zero_add, pow_one]
    exact h0
  | succ n ih =>
    have := near_product (ih (le_trans (Nat.mul_le_mul_left _ (by omega)) hp) (by omega)) h0 (by omega) (by norm_num)
      (by rw [← pow_succ]; exact (hr.pow _).mono hp)
    rw [← pow_succ] at this
    exact this

private theorem near_fold {p : ℕ} {σ : Var F64 → F64} (l : List (Var F64 × Int)) (hl : ∀ ve ∈ l, (σ ve.1).Within p ∧ 0 < ve.2)
    {n a : ℕ} {c : F64} {x : ℚ} (h : Near FR n c x |x|) (hr : InR a x) (hn : n + (l.map (·.2.toNat)).sum ≤ 2 ^ 50)
    (ha : a + p * (l.map (·.2.toNat)).sum ≤ 1000) :
    Near FR (n + (l.map (·.2.toNat)).sum) (l.foldl (fun acc ve => GoNum.mul acc (naivePow (σ ve.1) ve.2.toNat)) c)
      (x * (l.map fun ve => (σ ve.1).toRat ^ ve.2.toNat).prod)
      |x * (l.map fun ve => (σ ve.1).toRat ^ ve.2.toNat).prod| ∧
    InR (a + p * (l.map (·.2.toNat)).sum) (x * (l.map fun ve => (σ ve.1).toRat ^ ve.2.toNat).prod) := by
  induction l generalizing n a c x with
  | nil => simpa using ⟨h, hr⟩
  | cons ve l ih =>
    obtain ⟨h1, h2⟩ := hl ve (by simp)
    obtain ⟨k, hk⟩ : ∃ k, ve.2.toNat = k + 1 := ⟨ve.2.toNat - 1, by omega⟩
    simp only [List.map_cons, List.sum_cons, List.prod_cons, List.foldl_cons] at hn ha ⊢
    rw [hk] at hn ha ⊢
    rw [Nat.mul_add] at ha
    obtain ⟨h0, hr0⟩ := within_near h1
    have hp := near_pow h1 k (by omega) (by omega)
    have hxr : InR (a + p * (k + 1)) (x * (σ ve.1).toRat ^ (k + 1)) := hr.mul (hr0.pow _)
    have hm := near_product h hp (by omega) (by omega) (hxr.mono (by omega))
    have := ih (fun ve hve => hl ve (by simp [hve])) hm hxr (by omega) (by omega)
    rw [show n + k + 1 + (l.map (·.2.toNat)).sum = n + (k + 1 + (l.map (·.2.toNat)).sum) by omega, mul_assoc,
      show a + p * (k + 1) + p * (l.map (·.2.toNat)).sum = a + p * (k + 1 + (l.map (·.2.toNat)).sum) by ring] at this
    exact this

/-- The hypotheses on one term: `a` and `p` bound the sizes of the coefficient and of the numbers given to the
variables, `D` the degree. -/
structure Mono.Sized (σ : Var F64 → F64) (a p D : ℕ) (m : Mono F64) : Prop where
  coeff : m.coeff.Within a
  point : ∀ v ∈ m.vars, (σ v).Within p
  deg : (m.exps.map Int.toNat).sum ≤ D

private theorem near_mono {a p D : ℕ} {σ : Var F64 → F64} {m : Mono F64} (hm : m.Canon) (hs : m.Sized σ a p D)
    (hD : D ≤ 2 ^ 20) (ha : a + p * D ≤ 1000) :
    Near FR D (m.naive σ) (m.exactAt σ) |m.exactAt σ| ∧ InR 1000 (m.exactAt σ) := by
  obtain ⟨h0, hr⟩ := within_near hs.coeff
  have e : ((m.vars.zip m.exps).map (·.2.toNat)).sum = (m.exps.map Int.toNat).sum := by
    rw [← List.map_snd_zip (l₁ := m.vars) (l₂ := m.exps) hm.len.le, List.map_map]
    simp [Function.comp_def, List.map_snd_zip (l₁ := m.vars) (l₂ := m.exps) hm.len.le]
  have hd := hs.deg
  have hpd : p * (m.exps.map Int.toNat).sum ≤ p * D := Nat.mul_le_mul_left _ hd
  have := near_fold (p := p) (σ := σ) (m.vars.zip m.exps)
    (fun ve hve => ⟨hs.point _ (List.of_mem_zip hve).1, hm.pos _ (List.of_mem_zip hve).2⟩) h0 hr
    (by rw [e]; omega) (by rw [e]; omega)
  rw [e] at this
  exact ⟨this.1.weaken (by omega), this.2.mono (by omega)⟩

private theorem near_sum {D : ℕ} {σ : Var F64 → F64} (hD : D ≤ 2 ^ 20) (l : List (Mono F64))
    (hl : ∀ m ∈ l, Near FR D (m.naive σ) (m.exactAt σ) |m.exactAt σ| ∧ InR 1000 (m.exactAt σ))
    {k : ℕ} {c : F64} {x b : ℚ} (h : Near FR (D + k) c x b) (hk : k + l.length ≤ 2 ^ 20) (hb : b ≤ (k + 1) * 2 ^ 1000) :
    Near FR (D + k + l.length) (l.foldl (fun acc m => GoNum.add acc (m.naive σ)) c)
      (x + (l.map fun m => m.exactAt σ).sum) (b + (l.map fun m => |m.exactAt σ|).sum) := by
  induction l generalizing k c x b with
  | nil => simpa using h
  | cons m l ih =>
    obtain ⟨h1, h2⟩ := hl m (by simp)
    rw [List.length_cons] at hk
    have hm : |m.exactAt σ| ≤ 2 ^ 1000 := by
      rcases h2 with h2 | h2
      · rw [h2, abs_zero]; positivity
      · exact h2.2
    have hbm : b + |m.exactAt σ| ≤ ((k + 1 : ℕ) + 1) * 2 ^ 1000 := by
      push_cast
      have : ((k : ℚ) + 1 + 1) * 2 ^ 1000 = (k + 1) * 2 ^ 1000 + 2 ^ 1000 := by ring
      rw [this]
      linarith
    have hs : FR.Small ((1 + FR.u) ^ (D + k) * (b + |m.exactAt σ|)) := by
      show |_| ≤ (2 : ℚ) ^ 1023
      have h5 := u_pow (n := D + k) (by omega)
      have h6 := one_le_pow_u FR (D + k)
      have h7 : 0 ≤ b + |m.exactAt σ| := add_nonneg h.nonneg (abs_nonneg _)
      rw [abs_of_nonneg (mul_nonneg (by linarith) h7)]
      have h8 : (k : ℚ) ≤ 2 ^ 20 := by exact_mod_cast (by omega : k ≤ 2 ^ 20)
      have h9 : (2 : ℚ) ^ 1023 = 2 ^ 1000 * 2 ^ 23 := by rw [← pow_add]
      rw [h9]
      push_cast at hbm
      have h10 : ((k : ℚ) + 1 + 1) * 2 ^ 1000 ≤ (2 ^ 20 + 2) * 2 ^ 1000 :=
        mul_le_mul_of_nonneg_right (by linarith) (by positivity)
      calc (1 + FR.u) ^ (D + k) * (b + |m.exactAt σ|) ≤ 5 / 4 * ((2 ^ 20 + 2) * 2 ^ 1000) :=
            mul_le_mul h5 (hbm.trans h10) h7 (by norm_num)
        _ = 2 ^ 1000 * (5 / 4 * (2 ^ 20 + 2)) := by ring
        _ ≤ 2 ^ 1000 * 2 ^ 23 := mul_le_mul_of_nonneg_left (by norm_num) (by positivity)
    have := ih (fun m hm => hl m (by simp [hm])) (k := k + 1) (h.add (h1.weaken (by omega)) hs) (by omega) hbm
    rw [List.foldl_cons, List.map_cons, List.sum_cons, List.map_cons, List.sum_cons, List.length_cons,
      show D + k + (l.length + 1) = D + (k + 1) + l.length by omega, ← add_assoc x, ← add_assoc b]
    exact this

/-- C94: the number for a polynomial with `n + 1` terms of degree at most `D` is finite and differs from the exact
value by at most `D + n` roundings of the sum of the absolute values of the terms. -/
theorem substMap_rounding {p : Poly F64} {sm : SubMap F64} {σ : Var F64 → F64} {a b D n : ℕ} (hp : p.Canon)
    (h : Gives sm σ (.poly p)) (hs : ∀ m ∈ p.monos, m.Sized σ a b D) (hD : D ≤ 2 ^ 20) (hn : p.monos.length = n + 1)
    (hn' : n ≤ 2 ^ 19) (ha : a + b * D ≤ 1000) :
    ∃ q : ℚ, (Scalar.poly p).substMap sm = .ok (.k (.fin q)) ∧
      |q - (p.monos.map fun m => m.exactAt σ).sum| ≤
        ((1 + 1 / 2 ^ 53) ^ (D + n) - 1) * (p.monos.map fun m => |m.exactAt σ|).sum := by
  rw [substMap_naive (e := .poly p) hp h]
  have hall : ∀ m ∈ p.monos, Near FR D (m.naive σ) (m.exactAt σ) |m.exactAt σ| ∧ InR 1000 (m.exactAt σ) := fun m hm =>
    near_mono (hp.all m hm) (hs m hm) hD ha
  unfold Scalar.naive
  dsimp only
  generalize p.monos = l at hall hn
  cases l with
  | nil => simp at hn
  | cons m l =>
    rw [List.length_cons] at hn
    obtain ⟨h1, h2⟩ := hall m (by simp)
    have hm : |m.exactAt σ| ≤ ((0 : ℕ) + 1) * 2 ^ 1000 := by
      rw [Nat.cast_zero, zero_add, one_mul]
      rcases h2 with h2 | h2
      · rw [h2, abs_zero]; positivity
      · exact h2.2
    have := near_sum hD l (fun m hm => hall m (by simp [hm])) (k := 0) (h1.zero_add FR.zero.1 FR.zero.2) (by omega) hm
    rw [Nat.add_zero, show l.length = n by omega] at this
    rw [List.foldl_cons, List.map_cons, List.sum_cons, List.map_cons, List.sum_cons]
    obtain ⟨q, e, _⟩ := this.fin
    have he := this.err
    rw [e] at he ⊢
    exact ⟨q, rfl, he⟩

/-- C94: the number for a single term has a relative error of at most one rounding per factor. -/
theorem substMap_mono_rounding {m : Mono F64} {sm : SubMap F64} {σ : Var F64 → F64} {a b D : ℕ} (hm : m.Canon)
    (h : Gives sm σ (.mono m)) (hs : m.Sized σ a b D) (hD : D ≤ 2 ^ 20) (ha : a + b * D ≤ 1000) :
    ∃ q : ℚ, (Scalar.mono m).substMap sm = .ok (.k (.fin q)) ∧
      |q - m.exactAt σ| ≤ ((1 + 1 / 2 ^ 53) ^ D - 1) * |m.exactAt σ| := by
  rw [substMap_naive (e := .mono m) hm h]
  have hn := (near_mono hm hs hD ha).1
  show ∃ q : ℚ, (Except.ok (Scalar.k (m.naive σ)) : Go (Scalar F64)) = _ ∧ _
  obtain ⟨q, e, _⟩ := hn.fin
  have he := hn.err
  rw [e] at he ⊢
  exact ⟨q, rfl, he⟩

/-! ## Examples -/

/-- A variable. -/
def evV (i : ℕ) : Var F64 := ⟨i, .fin (-10), .fin 10, 0, "x", 0⟩

private theorem evV_ok (i : ℕ) : (evV i).OK := by
  show GoNum.le (F64.fin 10) (F64.fin (-10)) = false
  decide +kernel

/-- For vectors the order matters, already with linear entries: `(x + y + z, x + y + z)` at `x = 2^53`, `y = 1`,
`z = -2^53` is `(0, 0)` or `(1, 1)`, depending on the iteration order of the map.  The exact value is 1; the
scalar `x + y + z` gives 0 in every order. -/
theorem substMap_vec_rounding_order_false :
    let s : Poly F64 := ⟨[⟨.fin 1, [1], [evV 0]⟩, ⟨.fin 1, [1], [evV 1]⟩, ⟨.fin 1, [1], [evV 2]⟩]⟩
    let x := (evV 0, Scalar.k (F64.fin (2 ^ 53)))
    let y := (evV 1, Scalar.k (F64.fin 1))
    let z := (evV 2, Scalar.k (F64.fin (-2 ^ 53)))
    (Vec.p [s, s]).substMap [x, y, z] = .ok (.k [.fin 0, .fin 0]) ∧
    (Vec.p [s, s]).substMap [x, z, y] = .ok (.k [.fin 1, .fin 1]) ∧
    (Scalar.poly s).substMap [x, y, z] = .ok (.k (.fin 0)) ∧
    (Scalar.poly s).substMap [x, z, y] = .ok (.k (.fin 0)) := by
  decide +kernel

/-- `0.1*x^3*y + 0.2*x*y^3`: C13 does not hold for such terms in general, evaluation is right. -/
private def evP : Poly F64 :=
  ⟨[⟨F64.ofRat (1 / 10), [3, 1], [evV 0, evV 1]⟩, ⟨F64.ofRat (1 / 5), [1, 3], [evV 0, evV 1]⟩]⟩

private theorem evP_canon : evP.Canon where
  ne := by simp [evP]
  all := by
    intro m hm
    simp only [evP, List.mem_cons, List.not_mem_nil, or_false] at hm
    rcases hm with rfl | rfl <;>
    exact ⟨rfl, by decide, by decide, by
      intro v hv
      simp only [List.mem_cons, List.not_mem_nil, or_false] at hv
      rcases hv with rfl | rfl <;> exact evV_ok _⟩

private def evσ (v : Var F64) : F64 := if v.id = 0 then .fin 3 else .fin (1 / 2)

private def evSm : SubMap F64 := [(evV 1, .k (.fin (1 / 2))), (evV 0, .k (.fin 3))]

private theorem evP_gives : Gives evSm evσ (.poly evP) where
  ok := by
    intro kv hkv
    simp only [evSm, List.mem_cons, List.not_mem_nil, or_false] at hkv
    rcases hkv with rfl | rfl <;> exact ⟨evV_ok _, trivial⟩
  keys := by decide
  all := by
    rintro v ⟨m, hm, hv⟩
    simp only [evP, List.mem_cons, List.not_mem_nil, or_false] at hm
    rcases hm with rfl | rfl <;>
    · simp only [List.mem_cons, List.not_mem_nil, or_false] at hv
      rcases hv with rfl | rfl <;> simp [evSm, evσ, evV]
  bounds := by
    rintro v ⟨m, hm, hv⟩
    simp only [evP, List.mem_cons, List.not_mem_nil, or_false] at hm
    rcases hm with rfl | rfl <;>
    · simp only [List.mem_cons, List.not_mem_nil, or_false] at hv
      rcases hv with rfl | rfl <;> decide +kernel

/-- The number is that of `((0.1*27)*0.5) + ((0.2*3)*0.125)`. -/
example : (Scalar.poly evP).substMap evSm = .ok (.k (GoNum.add (GoNum.mul (GoNum.mul (F64.ofRat (1 / 10)) (.fin 27)) (.fin (1 / 2)))
    (GoNum.mul (GoNum.mul (F64.ofRat (1 / 5)) (.fin 3)) (.fin (1 / 8))))) := by
  rw [substMap_naive (e := .poly evP) evP_canon evP_gives]
  decide +kernel

/-- The hypotheses of the rounding theorem hold for it. -/
example : ∃ q : ℚ, (Scalar.poly evP).substMap evSm = .ok (.k (.fin q)) ∧
    |q - (evP.monos.map fun m => m.exactAt evσ).sum| ≤
      ((1 + 1 / 2 ^ 53) ^ (4 + 1) - 1) * (evP.monos.map fun m => |m.exactAt evσ|).sum := by
  refine substMap_rounding (a := 4) (b := 2) (D := 4) (n := 1) evP_canon evP_gives ?_ (by norm_num) rfl (by norm_num) (by norm_num)
  have hw : ∀ i < 2, (evσ (evV i)).Within 2 := by
    intro i hi
    rcases (by omega : i = 0 ∨ i = 1) with rfl | rfl
    · exact ⟨3, rfl, by unfold F64.Able; decide +kernel, Or.inr (by decide +kernel)⟩
    · exact ⟨1 / 2, rfl, by unfold F64.Able; decide +kernel, Or.inr (by decide +kernel)⟩
  have hv : ∀ v ∈ [evV 0, evV 1], (evσ v).Within 2 := by
    intro v hv
    simp only [List.mem_cons, List.not_mem_nil, or_false] at hv
    rcases hv with rfl | rfl
    · exact hw 0 (by norm_num)
    · exact hw 1 (by norm_num)
  intro m hm
  simp only [evP, List.mem_cons, List.not_mem_nil, or_false] at hm
  rcases hm with rfl | rfl
  · exact ⟨⟨round53 (1 / 10), by decide +kernel, by unfold F64.Able; decide +kernel, Or.inr (by decide +kernel)⟩, hv, by decide⟩
  · exact ⟨⟨round53 (1 / 5), by decide +kernel, by unfold F64.Able; decide +kernel, Or.inr (by decide +kernel)⟩, hv, by decide⟩

end Verif
