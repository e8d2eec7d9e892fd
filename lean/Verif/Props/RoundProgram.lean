import Verif.Lemmas.RoundSubst
import Verif.Props.Checked
import Verif.Props.Machine
import Verif.Props.RoundLin

/-!
# C83: rounding errors of whole `float64` programs

C69 and C73 bound the rounding errors of one call, given bounds for its operands.  Here a caller makes any number of
calls (`Prog` of C62, with `Substitute` and `SubstituteAccordingTo`), the coefficients are any finite floats, and the
claim is about the last result: each of its coefficients differs from that of the polynomial meant by at most
`((1 + 2^-53)^n - 1)` times the coefficient of the same program run on absolute values.  The number `n` of roundings and
the conditions that exclude overflow and underflow are read off the calls, not off intermediate results.
-/

set_option linter.unusedSectionVars false

namespace Verif

open MvPolynomial

/-! ## Specification -/

/-- The same program on exact numbers. -/
def Prog.exact (p : Prog F64) : Prog ℚ := p.map F64.val Var.exact

/-- The same program on absolute values: constants without sign, and `Minus` replaced by `Plus`. -/
def Prog.absolute : Prog ℚ → Prog ℚ
  | .k c => .k |c|
  | .var v => .var v
  | .plus a b => .plus a.absolute b.absolute
  | .minus a b => .plus a.absolute b.absolute
  | .mul a b => .mul a.absolute b.absolute
  | .pow a n => .pow a.absolute n
  | .simp a => .simp a.absolute
  | .deriv a v => .deriv a.absolute v
  | .subst a v s => .subst a.absolute v s.absolute
  | .substMap a n key val => .substMap a.absolute n key fun j => (val j).absolute

section
variable {R : Type}

/-- The constants the program uses. -/
def Prog.HasConst : Prog R → R → Prop
  | .k c, x => x = c
  | .var _, _ => False
  | .plus a b, x | .minus a b, x | .mul a b, x => a.HasConst x ∨ b.HasConst x
  | .pow a _, x | .simp a, x | .deriv a _, x => a.HasConst x
  | .subst a _ s, x => a.HasConst x ∨ s.HasConst x
  | .substMap a _ _ val, x => a.HasConst x ∨ ∃ j, (val j).HasConst x

/-- A bound for the number of exponent vectors of the result, `0` counted. -/
def Prog.count : Prog R → ℕ
  | .k _ => 1
  | .var _ => 2
  | .plus a b | .minus a b => a.count + b.count
  | .mul a b => a.count * b.count
  | .pow a n => a.count ^ n
  | .simp a | .deriv a _ => a.count
  | .subst a _ s => 1 + a.count * max 2 s.count ^ a.bound
  | .substMap a _ _ val => 1 + a.count * max 2 (Finset.univ.sup fun j => (val j).count) ^ a.bound

/-- Roundings when variables are replaced in terms of degree `b`: `n` in the replacements, which have up to `t` exponent
vectors. -/
def substRoundings (b n t : ℕ) : ℕ := b * (n + 2 + t + t ^ b)

/-- The number of roundings. -/
def Prog.roundings : Prog R → ℕ
  | .k _ | .var _ => 0
  | .plus a b | .minus a b => max a.roundings b.roundings + 1
  | .mul a b => a.roundings + b.roundings + (1 + b.count)
  | .pow a n => n * (a.roundings + 1 + a.count)
  | .simp a => a.roundings
  | .deriv a _ => a.roundings + 1
  | .subst a _ s => a.roundings + (substRoundings a.bound s.roundings (max 2 s.count) + a.count)
  | .substMap a _ _ val => a.roundings + (substRoundings a.bound (Finset.univ.sup fun j => (val j).roundings)
      (max 2 (Finset.univ.sup fun j => (val j).count)) + a.count)

/-- If the constants are multiples of `2^-q`, the coefficients of the result are multiples of `2^-(p.grid q)`. -/
def Prog.grid (q : ℕ) : Prog R → ℕ
  | .k _ => q
  | .var _ => 0
  | .plus a b | .minus a b => max (a.grid q) (b.grid q)
  | .mul a b => a.grid q + b.grid q
  | .pow a n => n * a.grid q
  | .simp a | .deriv a _ => a.grid q
  | .subst a _ s => a.grid q + a.bound * s.grid q
  | .substMap a _ _ val => a.grid q + a.bound * Finset.univ.sup fun j => (val j).grid q

end

/-- A bound for the sum of the absolute values of the coefficients. -/
def Prog.size : Prog F64 → ℕ
  | .k c => max 1 ⌈|c.val|⌉₊
  | .var _ => 1
  | .plus a b | .minus a b => a.size + b.size
  | .mul a b => a.size * b.size
  | .pow a n => a.size ^ n
  | .simp a => a.size
  | .deriv a _ => max 1 (a.bound * a.size)
  | .subst a _ s => 2 * a.size * s.size ^ a.bound
  | .substMap a _ _ val => 2 * a.size * max 1 (Finset.univ.sup fun j => (val j).size) ^ a.bound

/-- What excludes overflow and underflow in the last call. -/
structure Prog.Safe (q : ℕ) (p : Prog F64) : Prop where
  rounds : p.roundings ≤ 2 ^ 52
  grid : p.grid q ≤ 1074
  size : p.size ≤ 2 ^ 1022
  degree : p.bound ≤ 2 ^ 53

/-- What excludes overflow and underflow in all calls. -/
def Prog.InRange (q : ℕ) : Prog F64 → Prop
  | .k c => (Prog.k c).Safe q
  | .var v => (Prog.var v).Safe q
  | .plus a b => (Prog.plus a b).Safe q ∧ a.InRange q ∧ b.InRange q
  | .minus a b => (Prog.minus a b).Safe q ∧ a.InRange q ∧ b.InRange q
  | .mul a b => (Prog.mul a b).Safe q ∧ a.InRange q ∧ b.InRange q
  | .pow a n => (Prog.pow a n).Safe q ∧ a.InRange q
  | .simp a => (Prog.simp a).Safe q ∧ a.InRange q
  | .deriv a v => (Prog.deriv a v).Safe q ∧ a.InRange q
  | .subst a v s => (Prog.subst a v s).Safe q ∧ a.InRange q ∧ s.InRange q
  | .substMap a n key val => (Prog.substMap a n key val).Safe q ∧ a.InRange q ∧ ∀ j, (val j).InRange q

/-! ## Bounds on the polynomials -/

theorem totalDegree_bind₁ {φ : ℕ → MvPolynomial ℕ ℚ} {f : MvPolynomial ℕ ℚ} {k b : ℕ} (hf : f.totalDegree ≤ b)
    (hφ : ∀ i, (φ i).totalDegree ≤ k) : (bind₁ φ f).totalDegree ≤ b * k := by
  rw [bind₁_sum φ f subset_rfl]
  refine totalDegree_finsetSum_le fun d hd => ?_
  refine (totalDegree_mul _ _).trans ?_
  rw [totalDegree_C, zero_add]
  refine (totalDegree_finsetProd _ _).trans ?_
  calc ∑ i ∈ d.support, (φ i ^ d i).totalDegree ≤ ∑ i ∈ d.support, d i * k :=
        Finset.sum_le_sum fun i _ => (totalDegree_pow _ _).trans (Nat.mul_le_mul_left _ (hφ i))
    _ = (d.sum fun _ e => e) * k := by rw [Finsupp.sum, Finset.sum_mul]
    _ ≤ b * k := Nat.mul_le_mul_right _ ((le_totalDegree hd).trans hf)

theorem totalDegree_pderiv_le (i : ℕ) (f : MvPolynomial ℕ ℚ) : (pderiv i f).totalDegree ≤ f.totalDegree := by
  refine Finset.sup_le fun d hd => ?_
  rw [mem_support_iff, coeff_pderiv] at hd
  refine le_trans ?_ (le_totalDegree (mem_support_iff.mpr (left_ne_zero_of_mul hd)))
  rw [degree_add]
  exact Nat.le_add_right _ _

theorem Prog.meaning_degree (p : Prog ℚ) : p.meaning.totalDegree ≤ p.bound := by
  classical
  induction p with
  | k c => simp [Prog.meaning, Prog.bound]
  | var v => simp [Prog.meaning, Prog.bound]
  | plus a b iha ihb => exact (totalDegree_add _ _).trans (max_le_max iha ihb)
  | minus a b iha ihb => exact (totalDegree_sub _ _).trans (max_le_max iha ihb)
  | mul a b iha ihb => exact (totalDegree_mul _ _).trans (add_le_add iha ihb)
  | pow a n iha => exact (totalDegree_pow _ _).trans (Nat.mul_le_mul_left _ iha)
  | simp a iha => exact iha
  | deriv a v iha => exact (totalDegree_pderiv_le _ _).trans iha
  | subst a v s iha ihs =>
    refine totalDegree_bind₁ iha fun i => ?_
    split
    · exact ihs.trans (le_max_right _ _)
    · rw [totalDegree_X]; exact le_max_left _ _
  | substMap a n key val iha ihs =>
    refine totalDegree_bind₁ iha fun i => ?_
    split
    · exact (ihs _).trans ((Finset.le_sup (f := fun j => (val j).bound) (Finset.mem_univ _)).trans (le_max_right _ _))
    · rw [totalDegree_X]; exact le_max_left _ _

theorem Prog.exact_bound (p : Prog F64) : p.exact.absolute.bound = p.bound := by
  unfold Prog.exact
  induction p with
  | k c => rfl
  | var v => rfl
  | plus a b iha ihb => simp only [Prog.map, Prog.absolute, Prog.bound, iha, ihb]
  | minus a b iha ihb => simp only [Prog.map, Prog.absolute, Prog.bound, iha, ihb]
  | mul a b iha ihb => simp only [Prog.map, Prog.absolute, Prog.bound, iha, ihb]
  | pow a n iha => simp only [Prog.map, Prog.absolute, Prog.bound, iha]
  | simp a iha => simp only [Prog.map, Prog.absolute, Prog.bound, iha]
  | deriv a v iha => simp only [Prog.map, Prog.absolute, Prog.bound, iha]
  | subst a v s iha ihs => simp only [Prog.map, Prog.absolute, Prog.bound, iha, ihs]
  | substMap a n key val iha ihs => simp only [Prog.map, Prog.absolute, Prog.bound, iha, ihs]

theorem Prog.absolute_degree (p : Prog F64) : p.exact.absolute.meaning.totalDegree ≤ p.bound := by
  rw [← p.exact_bound]; exact Prog.meaning_degree _

/-- The coefficients on absolute values bound those meant. -/
theorem Prog.meaning_dom (p : Prog ℚ) : Dom p.meaning p.absolute.meaning := by
  classical
  induction p with
  | k c => exact dom_C le_rfl
  | var v => exact dom_X _
  | plus a b iha ihb => exact iha.add ihb
  | minus a b iha ihb => exact iha.sub ihb
  | mul a b iha ihb => exact iha.mul ihb
  | pow a n iha => exact iha.pow n
  | simp a iha => exact iha
  | deriv a v iha => exact iha.pderiv _
  | subst a v s iha ihs =>
    refine iha.bind₁ fun i => ?_
    split
    · exact ihs
    · exact dom_X _
  | substMap a n key val iha ihs =>
    refine iha.bind₁ fun i => ?_
    split
    · exact ihs _
    · exact dom_X _

theorem Prog.size_pos (p : Prog F64) : 1 ≤ p.size := by
  induction p with
  | k c => exact le_max_left _ _
  | var v => exact le_rfl
  | plus a b iha ihb => exact iha.trans (Nat.le_add_right _ _)
  | minus a b iha ihb => exact iha.trans (Nat.le_add_right _ _)
  | mul a b iha ihb => exact Nat.mul_pos iha ihb
  | pow a n iha => exact Nat.one_le_pow _ _ iha
  | simp a iha => exact iha
  | deriv a v iha => exact le_max_left _ _
  | subst a v s iha ihs => exact Nat.mul_pos (Nat.mul_pos two_pos iha) (Nat.one_le_pow _ _ ihs)
  | substMap a n key val iha ihs =>
    exact Nat.mul_pos (Nat.mul_pos two_pos iha) (Nat.one_le_pow _ _ (lt_of_lt_of_le one_pos (le_max_left _ _)))

/-- The sum of the coefficients on absolute values. -/
theorem Prog.mass_le_size (p : Prog F64) : mass p.exact.absolute.meaning ≤ p.size := by
  classical
  have dom : ∀ p : Prog F64, Dom p.exact.absolute.meaning p.exact.absolute.meaning := fun p => p.exact.meaning_dom.self
  induction p with
  | k c =>
    show eval _ (C |c.val|) ≤ _
    rw [eval_C]
    refine (Nat.le_ceil _).trans ?_
    exact_mod_cast le_max_right _ _
  | var v =>
    show eval _ (X _) ≤ _
    rw [eval_X]
    simp [Prog.size]
  | plus a b iha ihb =>
    show eval _ (_ + _) ≤ _
    rw [map_add]
    simp only [Prog.size]
    push_cast
    exact add_le_add iha ihb
  | minus a b iha ihb =>
    show eval _ (_ + _) ≤ _
    rw [map_add]
    simp only [Prog.size]
    push_cast
    exact add_le_add iha ihb
  | mul a b iha ihb =>
    show eval _ (_ * _) ≤ _
    rw [map_mul]
    simp only [Prog.size]
    push_cast
    exact mul_le_mul iha ihb (dom b).mass_nonneg (Nat.cast_nonneg _)
  | pow a n iha =>
    show eval _ (_ ^ _) ≤ _
    rw [map_pow]
    simp only [Prog.size]
    push_cast
    exact pow_le_pow_left₀ (dom a).mass_nonneg iha n
  | simp a iha => exact iha
  | deriv a v iha =>
    refine (mass_pderiv (dom a) a.absolute_degree _).trans ?_
    refine (mul_le_mul_of_nonneg_left iha (Nat.cast_nonneg _)).trans ?_
    exact_mod_cast le_max_right _ _
  | subst a v s iha ihs =>
    have h1 : (1 : ℚ) ≤ s.size := by exact_mod_cast s.size_pos
    refine (mass_bind₁ (dom a) a.absolute_degree (φ := fun i => if i = v.id then s.exact.absolute.meaning else X i)
      (w := s.size) (fun i => ?_) h1 fun i => ?_).trans ?_
    · show Dom _ (if i = v.id then s.exact.absolute.meaning else X i)
      split
      · exact dom s
      · exact dom_X _
    · show mass (if i = v.id then s.exact.absolute.meaning else X i) ≤ _
      split
      · exact ihs
      · show eval _ (X _) ≤ _
        rw [eval_X]; exact h1
    · simp only [Prog.size]
      push_cast
      have h2 := mul_le_mul_of_nonneg_left iha (pow_nonneg (zero_le_one.trans h1) a.bound)
      have h3 : (0 : ℚ) ≤ (s.size : ℚ) ^ a.bound * a.size := by positivity
      calc _ ≤ (s.size : ℚ) ^ a.bound * a.size := h2
        _ ≤ 2 * ((s.size : ℚ) ^ a.bound * a.size) := by linarith
        _ = _ := by ring
  | substMap a n key val iha ihs =>
    set W : ℕ := max 1 (Finset.univ.sup fun j => (val j).size) with hW
    have h1 : (1 : ℚ) ≤ W := by exact_mod_cast le_max_left 1 _
    refine (mass_bind₁ (dom a) a.absolute_degree (φ := fun i => if h : ∃ j : Fin n, (key j).id = i then
      (val h.choose).exact.absolute.meaning else X i) (w := W) (fun i => ?_) h1 fun i => ?_).trans ?_
    · show Dom _ (if h : ∃ j : Fin n, (key j).id = i then (val h.choose).exact.absolute.meaning else X i)
      split
      · exact dom _
      · exact dom_X _
    · show mass (if h : ∃ j : Fin n, (key j).id = i then (val h.choose).exact.absolute.meaning else X i) ≤ _
      split
      · refine (ihs _).trans ?_
        exact_mod_cast (Finset.le_sup (f := fun j => (val j).size) (Finset.mem_univ _)).trans (le_max_right 1 _)
      · show eval _ (X _) ≤ _
        rw [eval_X]; exact h1
    · simp only [Prog.size]
      rw [← hW]
      push_cast
      have h2 := mul_le_mul_of_nonneg_left iha (pow_nonneg (zero_le_one.trans h1) a.bound)
      have h3 : (0 : ℚ) ≤ (W : ℚ) ^ a.bound * a.size := by positivity
      calc _ ≤ (W : ℚ) ^ a.bound * a.size := h2
        _ ≤ 2 * ((W : ℚ) ^ a.bound * a.size) := by linarith
        _ = _ := by ring

theorem Prog.InRange.safe {q : ℕ} {p : Prog F64} (h : p.InRange q) : p.Safe q := by
  cases p with
  | k c => exact h
  | var v => exact h
  | plus a b | minus a b | mul a b | pow a n | simp a | deriv a v | subst a v s | substMap a n key val => exact h.1

theorem Prog.Safe.mass {q : ℕ} {p : Prog F64} (h : p.Safe q) : mass p.exact.absolute.meaning ≤ 2 ^ 1022 :=
  p.mass_le_size.trans (by exact_mod_cast h.size)

/-! ## The run -/

theorem Prog.run_degree {p : Prog F64} (hv : ∀ v, p.Names v → v.OK) {e : Scalar F64} (he : p.run = .ok e) :
    e.TermsIn (degLE p.bound) := by
  obtain ⟨-, e', h1, h2⟩ := Prog.runW_good hv (keeps_id p.peak) le_rfl
  obtain rfl : e = e' := by rw [he] at h1; cases h1; rfl
  exact (good_iff.mp h2).2.1

theorem F64.feq_refl {x : F64} (h : x ≠ .nan) : GoNum.feq x x = true := by
  cases x with
  | nan => exact absurd rfl h
  | inf s => cases s <;> rfl
  | fin q => show F64.feq (.fin q) (.fin q) = true; simp [F64.feq]

theorem Prog.run_kept {p : Prog F64} {D : Set (ℕ →₀ ℕ)} (hf : p.Fits D) {U : Var F64 → Prop}
    (hU : ∀ v, U v → v.OK) (hc : ∀ v w, U v → U w → v.id = w.id → v = w)
    (hb : ∀ v, U v → v.lower ≠ .nan ∧ v.upper ≠ .nan) (hp : ∀ v, p.Names v → U v) (hk : p.Keys) {q : ℕ}
    (hq : ∀ c, p.HasConst c → c.IsFloat ∧ ∃ z : ℤ, c.val = z / 2 ^ q) (hr : p.InRange q) :
    ∃ e, p.run = .ok e ∧
      Kept U D (p.grid q) p.roundings p.count p.exact.meaning p.exact.absolute.meaning e := by
  classical
  induction hf with
  | @k c D h =>
    obtain ⟨h1, h2⟩ := hq c rfl
    exact ⟨.k c, rfl, kept_k h1 hr.grid h2⟩
  | @var v D h hv => exact ⟨.var v, rfl, kept_var (hU v (hp v rfl)) (hp v rfl) hv⟩
  | @plus a b A B D ha hb' h h1 h2 iha ihb =>
    obtain ⟨x, hx, kx⟩ := iha (fun v hv => hp v (.inl hv)) hk.1 (fun c hc => hq c (.inl hc)) hr.2.1
    obtain ⟨y, hy, ky⟩ := ihb (fun v hv => hp v (.inr hv)) hk.2 (fun c hc => hq c (.inr hc)) hr.2.2
    obtain ⟨r, r1, r2⟩ := (kx.mono h1 le_rfl kx.res.1 le_rfl le_rfl).plus h.free
      (ky.mono h2 le_rfl ky.res.1 le_rfl le_rfl) hr.1.rounds hr.1.mass
    exact ⟨r, by simp only [Prog.run, hx, hy, Go.ok_bind, r1], r2⟩
  | @minus a b A B D ha hb' h h1 h2 iha ihb =>
    obtain ⟨x, hx, kx⟩ := iha (fun v hv => hp v (.inl hv)) hk.1 (fun c hc => hq c (.inl hc)) hr.2.1
    obtain ⟨y, hy, ky⟩ := ihb (fun v hv => hp v (.inr hv)) hk.2 (fun c hc => hq c (.inr hc)) hr.2.2
    obtain ⟨r, r1, r2⟩ := (kx.mono h1 le_rfl kx.res.1 le_rfl le_rfl).minus h.free
      (ky.mono h2 le_rfl ky.res.1 le_rfl le_rfl) hr.1.rounds hr.1.mass
    exact ⟨r, by simp only [Prog.run, hx, hy, Go.ok_bind, r1], r2⟩
  | @mul a b A B D ha hb' h h1 iha ihb =>
    obtain ⟨x, hx, kx⟩ := iha (fun v hv => hp v (.inl hv)) hk.1 (fun c hc => hq c (.inl hc)) hr.2.1
    obtain ⟨y, hy, ky⟩ := ihb (fun v hv => hp v (.inr hv)) hk.2 (fun c hc => hq c (.inr hc)) hr.2.2
    obtain ⟨r, r1, r2⟩ := kx.mul h1 h.free ha.node.flat hb'.node.flat ky hr.1.grid hr.1.rounds hr.1.mass
    exact ⟨r, by simp only [Prog.run, hx, hy, Go.ok_bind, r1], r2⟩
  | @pow a n A D ha h h1 iha =>
    obtain ⟨x, hx, kx⟩ := iha hp hk hq hr.2
    have hs : (1 : ℚ) ≤ a.size := by exact_mod_cast a.size_pos
    obtain ⟨r, r1, r2⟩ := kx.power n (h1.trans h.flat) hr.1.grid hr.1.rounds hs a.mass_le_size
      (by exact_mod_cast hr.1.size)
    exact ⟨r, by simp only [Prog.run, hx, Go.ok_bind, r1], r2.mono h1 le_rfl hr.1.grid le_rfl le_rfl⟩
  | @simp a A D ha h h1 iha =>
    obtain ⟨x, hx, kx⟩ := iha hp hk hq hr.2
    obtain ⟨r, r1, r2⟩ := (kx.mono h1 le_rfl kx.res.1 le_rfl le_rfl).simp h.free hr.1.rounds hr.1.mass
    exact ⟨r, by simp only [Prog.run, hx, Go.ok_bind, r1], r2⟩
  | @deriv a v A D ha h h1 iha =>
    obtain ⟨x, hx, kx⟩ := iha (fun v hv => hp v (.inl hv)) hk hq hr.2
    obtain ⟨r, r1, r2⟩ := kx.derivative ha.node.flat (hU v (hp v (.inr rfl))) hr.1.degree
      (Prog.run_degree (fun w hw => hU w (hp w (.inl hw))) hx) hr.1.rounds hr.1.mass
    exact ⟨r, by simp only [Prog.run, hx, Go.ok_bind, r1], r2.mono h1 le_rfl r2.res.1 le_rfl le_rfl⟩
  | @subst a v s A S D ha hs h h1 iha ihs =>
    obtain ⟨x, hx, kx⟩ := iha (fun v hv => hp v (.inl hv)) hk.1 (fun c hc => hq c (.inl hc)) hr.2.1
    obtain ⟨y, hy, ky⟩ := ihs (fun v hv => hp v (.inr (.inr hv))) hk.2 (fun c hc => hq c (.inr hc)) hr.2.2
    have hv : v.OK := hU v (hp v (.inr (.inl rfl)))
    have hys := ky.good.check
    have hrd : a.roundings + (a.bound * (s.roundings + 2 + max 2 s.count + max 2 s.count ^ a.bound) + a.count) ≤ 2 ^ 52 :=
      hr.1.rounds
    have hs1 : (1 : ℚ) ≤ s.size := by exact_mod_cast s.size_pos
    have ha1 : (1 : ℚ) ≤ a.size := by exact_mod_cast a.size_pos
    have case : SubCase U A D (substTermsFor v S) (a.grid q) a.roundings a.count a.exact.meaning a.exact.absolute.meaning x
        (s.grid q) s.roundings (max 2 s.count) a.bound s.size (2 * a.size)
        (fun i => if i = v.id then s.exact.meaning else X i)
        (fun i => if i = v.id then s.exact.absolute.meaning else X i) (fun w => w.substitute v y) := by
      refine ⟨kx, ha.node, h, Prog.run_degree (fun w hw => hU w (hp w (.inl hw))) hx, ⟨?_, hs1, ?_, le_max_left _ _,
        hr.1.grid, by omega, by linarith, by have := hr.1.size; simp only [Prog.size] at this; exact_mod_cast this⟩, hrd,
        by linarith [a.mass_le_size], ?_, h1⟩
      · intro i
        split
        · exact s.exact.meaning_dom
        · exact dom_X _
      · intro i
        split
        · exact s.mass_le_size
        · show eval _ (X _) ≤ _
          rw [eval_X]; exact hs1
      · intro w hw hUw
        rw [var_substitute_eq hw hv hys]
        refine ⟨_, rfl, ?_⟩
        unfold substTermsFor
        by_cases hwv : w.id = v.id
        · obtain rfl := hc w v hUw (hp v (.inr (.inl rfl))) hwv
          rw [if_pos rfl, if_pos rfl, if_pos rfl, if_pos (And.intro rfl rfl)]
          exact ky.mono subset_rfl le_rfl ky.res.1 le_rfl (le_max_right _ _)
        · rw [if_neg hwv, if_neg hwv, if_neg hwv, if_neg (fun hh => hwv hh.1)]
          exact (kept_var hw hUw (Set.mem_singleton _)).mono subset_rfl (Nat.zero_le _) ky.res.1 (Nat.zero_le _) (le_max_left _ _)
    obtain ⟨r, r1, r2⟩ := case.result (sub := x.substitute v y) (G := fun m => m.substitute v y) (fun m hm cm vm => by
        rw [mono_substitute_eq cm hv hys]
        split
        · exact case.fold hm cm vm
        · next hno =>
          refine ⟨_, rfl, case.same hm cm fun w hw => ?_⟩
          have hne : w.id ≠ v.id := fun hh => hno (hh ▸ List.mem_map.mpr ⟨w, hw, rfl⟩)
          refine ⟨vm w hw, by simp [hne], by simp [hne], by simp [substTermsFor, hne]⟩) (by
        cases x with
        | k c => rfl
        | var w => rfl
        | mono m => rfl
        | poly p =>
          refine ⟨Scalar.asSimplified, .inr rfl, ?_⟩
          show p.substitute v y = _
          unfold Poly.substitute
          rw [show p.check = .ok () from kx.good.check, hv.check, hys, Go.ok_bind, Go.ok_bind, Go.ok_bind])
    exact ⟨r, by simp only [Prog.run, hx, hy, Go.ok_bind, r1], r2⟩
  | @substMap a n key val A D S ha hs h h1 iha ihs =>
    obtain ⟨x, hx, kx⟩ := iha (fun v hv => hp v (.inl hv)) hk.1 (fun c hc => hq c (.inl hc)) hr.2.1
    have hy' := fun j => ihs j (fun v hv => hp v (.inr (.inr ⟨j, hv⟩))) (hk.2.2 j) (fun c hc => hq c (.inr ⟨j, hc⟩))
      (hr.2.2 j)
    choose y hy ky using hy'
    have hkU : ∀ j, U (key j) := fun j => hp _ (.inr (.inl ⟨j, rfl⟩))
    have hinj : ∀ i j, (key i).id = (key j).id → i = j := fun i j hij =>
      hk.2.1 (hc _ _ (hkU i) (hkU j) hij)
    set sm : SubMap F64 := (List.finRange n).map (fun j => (key j, y j)) with hsm
    have hmem : ∀ kv, kv ∈ sm ↔ ∃ j, (key j, y j) = kv := by
      intro kv
      simp [hsm]
    have hok : ∀ kv ∈ sm, kv.1.OK ∧ kv.2.Canon := by
      rintro _ hkv
      obtain ⟨j, rfl⟩ := (hmem _).mp hkv
      exact ⟨hU _ (hkU j), (ky j).canon⟩
    set qs := Finset.univ.sup fun j => (val j).grid q with hqs
    set ns := Finset.univ.sup fun j => (val j).roundings with hns
    set S0 := Finset.univ.sup fun j => (val j).count with hS0
    set W := max 1 (Finset.univ.sup fun j => (val j).size) with hW
    have hqs' : qs ≤ 1074 := Finset.sup_le fun j _ => (hr.2.2 j).safe.grid
    have hrd : a.roundings + (a.bound * (ns + 2 + max 2 S0 + max 2 S0 ^ a.bound) + a.count) ≤ 2 ^ 52 :=
      hr.1.rounds
    have hs1 : (1 : ℚ) ≤ W := by exact_mod_cast le_max_left 1 _
    have ha1 : (1 : ℚ) ≤ a.size := by exact_mod_cast a.size_pos
    have case : SubCase U A D (fun i => {t | (∃ j, (key j).id = i ∧ t ∈ S j) ∨
        ((∀ j, (key j).id ≠ i) ∧ t = Finsupp.single i 1)}) (a.grid q) a.roundings a.count a.exact.meaning
        a.exact.absolute.meaning x qs ns (max 2 S0) a.bound W (2 * a.size)
        (fun i => if h : ∃ j : Fin n, (key j).id = i then (val h.choose).exact.meaning else X i)
        (fun i => if h : ∃ j : Fin n, (key j).id = i then (val h.choose).exact.absolute.meaning else X i)
        (fun w => w.substMap sm) := by
      refine ⟨kx, ha.node, h, Prog.run_degree (fun w hw => hU w (hp w (.inl hw))) hx, ⟨?_, hs1, ?_, le_max_left _ _,
        hr.1.grid, by omega, by linarith, by have := hr.1.size; simp only [Prog.size] at this; exact_mod_cast this⟩, hrd,
        by linarith [a.mass_le_size], ?_, h1⟩
      · intro i
        split
        · exact (val _).exact.meaning_dom
        · exact dom_X _
      · intro i
        split
        · next h =>
          refine (val _).mass_le_size.trans ?_
          exact_mod_cast (Finset.le_sup (f := fun j => (val j).size) (Finset.mem_univ h.choose)).trans (le_max_right _ _)
        · show eval _ (X _) ≤ _
          rw [eval_X]; exact hs1
      · intro w hw hUw
        rw [var_substMap_eq hw hok]
        refine ⟨_, rfl, ?_⟩
        unfold SubMap.lookup
        cases hl : sm.find? (fun kv => w.keyEq kv.1) with
        | some kv =>
          obtain ⟨j, rfl⟩ := (hmem _).mp (List.mem_of_find?_eq_some hl)
          have hkey := List.find?_some hl
          have hid : w.id = (key j).id := by
            simp only [Var.keyEq, Bool.and_eq_true, decide_eq_true_eq] at hkey
            exact hkey.1.1.1.1.1
          have hex : ∃ i : Fin n, (key i).id = w.id := ⟨j, hid.symm⟩
          have hj : hex.choose = j := hinj _ _ (hex.choose_spec.trans hid)
          rw [dif_pos hex, dif_pos hex, hj]
          exact (ky j).mono (fun t ht => .inl ⟨j, hid.symm, ht⟩) (Finset.le_sup (f := fun j => (val j).grid q) (Finset.mem_univ j))
            hqs' (Finset.le_sup (f := fun j => (val j).roundings) (Finset.mem_univ j))
            ((Finset.le_sup (f := fun j => (val j).count) (Finset.mem_univ j)).trans (le_max_right _ _))
        | none =>
          have hne : ¬ ∃ i : Fin n, (key i).id = w.id := by
            rintro ⟨i, hi⟩
            obtain rfl := hc _ _ (hkU i) hUw hi
            have := List.find?_eq_none.mp hl _ ((hmem _).mpr ⟨i, rfl⟩)
            refine this ?_
            simp only [Var.keyEq, F64.feq_refl (hb _ hUw).1, F64.feq_refl (hb _ hUw).2, decide_true, Bool.and_self]
          rw [dif_neg hne, dif_neg hne]
          exact (kept_var hw hUw (D := {t | _ ∨ _}) (.inr ⟨fun j hj => hne ⟨j, hj⟩, rfl⟩)).mono subset_rfl (Nat.zero_le _)
            hqs' (Nat.zero_le _) (le_max_left _ _)
    obtain ⟨r, r1, r2⟩ := case.result (sub := x.substMap sm) (G := fun m => m.substMap sm) (fun m hm cm vm => by
        rw [mono_substMap_eq cm hok]
        exact case.fold hm cm vm) (by
        cases x with
        | k c => rfl
        | var w => rfl
        | mono m => rfl
        | poly p =>
          refine ⟨pure, .inl rfl, ?_⟩
          show p.substMap sm = _
          unfold Poly.substMap
          rw [show p.check = .ok () from kx.good.check, checkSubMap_ok hok, Go.ok_bind, Go.ok_bind, bind_pure])
    refine ⟨r, ?_, r2⟩
    simp only [Prog.run, hx, Go.ok_bind]
    rw [mapM_pairs _ key (g := y) (fun j _ => hy j), Go.ok_bind]
    exact r1

/-! ## Results -/

/-- What is asked of a program: variables pass `Check`, equal IDs mean equal variables, no bound is NaN, no map has a key
twice; the constants are finite floats, multiples of `2^-q`; and no call overflows or underflows. -/
structure Prog.FloatOK (q : ℕ) (p : Prog F64) : Prop where
  vars : p.VarsOK
  bounds : ∀ v, p.Names v → v.lower ≠ .nan ∧ v.upper ≠ .nan
  keys : p.Keys
  consts : ∀ c, p.HasConst c → c.IsFloat ∧ ∃ z : ℤ, c.val = z / 2 ^ q
  range : p.InRange q

/-- Constants that are zero or not below `2^-s` are multiples of `2^-(s+52)`. -/
theorem consts_grid {p : Prog F64} {s : ℕ} (h : ∀ c, p.HasConst c → c.IsFloat ∧ (c.val = 0 ∨ (1 : ℚ) / 2 ^ s ≤ |c.val|)) :
    ∀ c, p.HasConst c → c.IsFloat ∧ ∃ z : ℤ, c.val = z / 2 ^ (s + 52) := by
  intro c hc
  obtain ⟨h1, h2 | h2⟩ := h c hc
  · exact ⟨h1, 0, by rw [h2]; simp⟩
  · exact ⟨h1, float_grid h1 h2⟩

/-- C83: no call panics, the result is well formed, and its coefficients are those meant up to the roundings counted. -/
theorem program_rounding {p : Prog F64} {q : ℕ} {D : Set (ℕ →₀ ℕ)} (h : p.FloatOK q) (hf : p.Fits D) :
    ∃ e, p.run = .ok e ∧ e.Approx D p.roundings p.exact.meaning p.exact.absolute.meaning ∧
      ∀ v, e.Mentions v → p.Names v := by
  obtain ⟨e, h1, h2⟩ := Prog.run_kept hf h.vars.ok h.vars.same h.bounds (fun _ => id) h.keys h.consts h.range
  exact ⟨e, h1, h2.approx, (good_iff.mp h2.good).2.2⟩

/-- C83, with the simple factor: at most `roundings * 2^-52`. -/
theorem program_error {p : Prog F64} {q : ℕ} {D : Set (ℕ →₀ ℕ)} (h : p.FloatOK q) (hf : p.Fits D) :
    ∃ e, p.run = .ok e ∧ e.Floats ∧ ∀ d,
      |coeff d e.exact.den - coeff d p.exact.meaning| ≤ p.roundings / 2 ^ 52 * coeff d p.exact.absolute.meaning := by
  obtain ⟨e, h1, h2, -⟩ := program_rounding h hf
  refine ⟨e, h1, h2.floats, fun d => (h2.err d).trans ?_⟩
  exact mul_le_mul_of_nonneg_right (roundings_bound h.range.safe.rounds) ((abs_nonneg _).trans (h2.le d))

/-- C83: at every point. -/
theorem program_value_rounding {p : Prog F64} {q : ℕ} {D : Set (ℕ →₀ ℕ)} (h : p.FloatOK q) (hf : p.Fits D) :
    ∃ e, p.run = .ok e ∧ ∀ ρ, |e.exact.value ρ - eval ρ p.exact.meaning| ≤
      p.roundings / 2 ^ 52 * eval (fun i => |ρ i|) p.exact.absolute.meaning := by
  obtain ⟨e, h1, h2, -⟩ := program_rounding h hf
  refine ⟨e, h1, fun ρ => (approx_value h2 ρ).trans ?_⟩
  refine mul_le_mul_of_nonneg_right (roundings_bound h.range.safe.rounds) ?_
  have := eval_abs_le zero_le_one (g := p.exact.absolute.meaning) (h := p.exact.meaning)
    (fun d => (abs_nonneg _).trans (h2.le d)) (fun d => by rw [one_mul]; exact h2.le d) ρ
  rw [one_mul] at this
  exact (abs_nonneg _).trans this

/-- C83 for programs whose results all have degree at most two. -/
theorem program_rounding_quadratic {p : Prog F64} {q : ℕ} (h : p.FloatOK q) (hq : p.Quadratic) :
    ∃ e, p.run = .ok e ∧ e.Approx (degLE p.deg) p.roundings p.exact.meaning p.exact.absolute.meaning :=
  (program_rounding h hq.fits).imp fun _ he => ⟨he.1, he.2.1⟩

/-- C83 for programs in one variable, of any degree. -/
theorem program_rounding_oneVar {p : Prog F64} {q x : ℕ} (h : p.FloatOK q) (hx : p.OneVar x) :
    ∃ e, p.run = .ok e ∧ e.Approx (univ1 x) p.roundings p.exact.meaning p.exact.absolute.meaning :=
  (program_rounding h hx.fits).imp fun _ he => ⟨he.1, he.2.1⟩

/-! ## Linear constraints -/

theorem Scalar.Approx.repeats {D : Set (ℕ →₀ ℕ)} (hD : D ⊆ flat) {n : ℕ} {f g : MvPolynomial ℕ ℚ} {e : Scalar F64}
    (h : e.Approx D n f g) : e.Repeats 1 :=
  (keysLe_one.mp h.alike).degsLe (good_of h.canon h.terms).terms hD

theorem Scalar.Approx.mono_roundings {D : Set (ℕ →₀ ℕ)} {n n' : ℕ} (hn : n ≤ n') {f g : MvPolynomial ℕ ℚ} {e : Scalar F64}
    (h : e.Approx D n f g) : e.Approx D n' f g := by
  have hg : ∀ d, 0 ≤ coeff d g := fun d => (abs_nonneg _).trans (h.le d)
  have hp : ((1 + 1 / 2 ^ 53) ^ n : ℚ) ≤ (1 + 1 / 2 ^ 53) ^ n' := pow_le_pow_right₀ (by norm_num) hn
  exact { h with
    err := fun d => (h.err d).trans (mul_le_mul_of_nonneg_right (sub_le_sub_right hp _) (hg d))
    size := fun d => (h.size d).trans (mul_le_mul_of_nonneg_right hp (hg d)) }

theorem Scalar.Approx.size_value {D : Set (ℕ →₀ ℕ)} {n : ℕ} {f g : MvPolynomial ℕ ℚ} {e : Scalar F64}
    (h : e.Approx D n f g) (ρ : ℕ → ℚ) :
    e.exact.absolute.value (fun i => |ρ i|) ≤ (1 + 1 / 2 ^ 53) ^ n * eval (fun i => |ρ i|) g := by
  have := eval_abs_le (c := (1 + 1 / 2 ^ 53) ^ n) (by positivity) (g := g) (h := e.exact.absolute.den)
    (fun d => (abs_nonneg _).trans (h.le d)) (fun d => by rw [abs_of_nonneg (absolute_coeff_nonneg e d)]; exact h.size d)
    (fun i => |ρ i|)
  simp only [abs_abs] at this
  exact (le_abs_self _).trans this

/-- What is asked of two programs that make the sides of a linear constraint over the variables `ws`. -/
structure LinearSides (q : ℕ) (l r : Prog F64) (ws : List (Var F64)) : Prop where
  left : l.FloatOK q
  right : r.FloatOK q
  qleft : l.Quadratic
  qright : r.Quadratic
  dleft : l.deg ≤ 1
  dright : r.deg ≤ 1
  bounds : ∀ v, l.Names v ∨ r.Names v → v.BoundsOK
  size : l.size + r.size ≤ 2 ^ 1022
  rounds : max l.roundings r.roundings + 1 ≤ 2 ^ 52
  ne : ws ≠ []
  ok : ∀ w ∈ ws, w.OK ∧ w.BoundsOK
  nodup : (ws.map (·.id)).Nodup
  covered : ∀ v, l.Names v ∨ r.Names v → v.id ∈ ws.map (·.id)

/-- The row `A` and the bound `c` give at every point the difference of the sides meant (times `σ`), up to the roundings of
both programs and one more. -/
def RowFor (l r : Prog F64) (ws : List (Var F64)) (σ : ℚ) (A : List F64) (c : F64) : Prop :=
  A.length = ws.length ∧ ∀ ρ, |rowValue A ws ρ - c.val - σ * (eval ρ l.exact.meaning - eval ρ r.exact.meaning)| ≤
    (max l.roundings r.roundings + 1 : ℕ) / 2 ^ 52 *
      (eval (fun i => |ρ i|) l.exact.absolute.meaning + eval (fun i => |ρ i|) r.exact.absolute.meaning)

theorem LinearSides.constraint {q : ℕ} {l r : Prog F64} {ws : List (Var F64)} (h : LinearSides q l r ws) {s : Sense}
    (so : s.OK) : ∃ a b, l.run = .ok a ∧ r.run = .ok b ∧ (SCon.mk a b s).LinearFloats ∧ (SCon.mk a b s).CoveredBy ws ∧
      NoOverflow 1 (a.exact.absolute.den + b.exact.absolute.den) ∧
      ∀ σ A c, (σ = 1 ∨ σ = -1) → (SCon.mk a b s).RowOf σ ws A c → RowFor l r ws σ A c := by
  obtain ⟨hl, hr, ql, qr, dl, dr, hb, hs, hn, hne, hok, hnd, hcov⟩ := h
  set n := max l.roundings r.roundings with hn'
  obtain ⟨a, ha, aa, na⟩ := program_rounding hl ql.fits
  obtain ⟨b, hb', ab, nb⟩ := program_rounding hr qr.fits
  have aa := aa.mono_roundings (le_max_left l.roundings r.roundings)
  have ab := ab.mono_roundings (le_max_right l.roundings r.roundings)
  rw [← hn'] at aa ab
  have fl : degLE l.deg ⊆ flat := fun d hd => degLE_one_flat (le_trans (b := l.deg) hd dl)
  have fr : degLE r.deg ⊆ flat := fun d hd => degLE_one_flat (le_trans (b := r.deg) hd dr)
  have hc : (SCon.mk a b s).LinearFloats := by
    refine ⟨⟨aa.canon, ab.canon, so⟩, ⟨aa.terms.mono ?_, ab.terms.mono ?_⟩, aa.floats, ab.floats, aa.repeats fl, ab.repeats fr, ?_⟩
    · exact fun d hd => le_trans (b := l.deg) hd dl
    · exact fun d hd => le_trans (b := r.deg) hd dr
    · rintro v (hv | hv)
      · exact hb v (.inl (na v hv))
      · exact hb v (.inr (nb v hv))
  have hcv : (SCon.mk a b s).CoveredBy ws := by
    rintro v (hv | hv)
    · exact hcov v (.inl (na v hv))
    · exact hcov v (.inr (nb v hv))
  have hG : NoOverflow 1 (a.exact.absolute.den + b.exact.absolute.den) := by
    have h1 := noOverflow_of_sum (n := n + 1) (g := l.exact.absolute.meaning + r.exact.absolute.meaning)
      (fun d => by rw [coeff_add]; exact add_nonneg ((abs_nonneg _).trans (aa.le d)) ((abs_nonneg _).trans (ab.le d))) hn (by
        rw [map_add]
        refine (add_le_add l.mass_le_size r.mass_le_size).trans ?_
        exact_mod_cast hs)
    intro d
    refine le_trans ?_ (h1 d)
    have e1 := absolute_coeff_nonneg a d
    have e2 := absolute_coeff_nonneg b d
    have e3 := (abs_nonneg _).trans (aa.le d)
    have e4 := (abs_nonneg _).trans (ab.le d)
    rw [coeff_add, coeff_add, abs_of_nonneg (add_nonneg e1 e2), abs_of_nonneg (add_nonneg e3 e4), pow_one, pow_succ _ n, mul_comm (_ ^ n),
      mul_assoc]
    refine mul_le_mul_of_nonneg_left ?_ (by norm_num)
    rw [mul_add]
    exact add_le_add (aa.size d) (ab.size d)
  refine ⟨a, b, ha, hb', hc, hcv, hG, fun σ A c hσ h2 => ⟨h2.length, fun ρ => ?_⟩⟩
  have m1 := rowOf_margin hc hnd hcv hσ h2 ρ
  have m2 := approx_value aa ρ
  have m3 := approx_value ab ρ
  have m4 : (SCon.mk a b s).size ρ ≤ _ := add_le_add (aa.size_value ρ) (ab.size_value ρ)
  have m5 := roundings_bound hn
  have g0 : ∀ (p : Prog F64), 0 ≤ eval (fun i => |ρ i|) p.exact.absolute.meaning := fun p => by
    have := eval_abs_le zero_le_one (g := p.exact.absolute.meaning) (h := p.exact.meaning)
      (fun d => (abs_nonneg _).trans (p.exact.meaning_dom d)) (fun d => by rw [one_mul]; exact p.exact.meaning_dom d) ρ
    rw [one_mul] at this
    exact (abs_nonneg _).trans this
  have g1 := g0 l
  have g2 := g0 r
  generalize eval (fun i => |ρ i|) l.exact.absolute.meaning = L at *
  generalize eval (fun i => |ρ i|) r.exact.absolute.meaning = M at *
  change |rowValue A ws ρ - c.val - σ * (a.exact.value ρ - b.exact.value ρ)| ≤ _ at m1
  generalize rowValue A ws ρ - c.val = x at *
  have m6 : |σ * (a.exact.value ρ - b.exact.value ρ) - σ * (eval ρ l.exact.meaning - eval ρ r.exact.meaning)| ≤
      ((1 + 1 / 2 ^ 53) ^ n - 1) * (L + M) := by
    rw [← mul_sub, abs_mul, show |σ| = 1 by rcases hσ with h | h <;> rw [h] <;> simp, one_mul, mul_add]
    refine le_trans ?_ (add_le_add m2 m3)
    refine le_trans (le_of_eq (congrArg _ ?_)) (abs_sub _ _)
    ring
  refine (abs_sub_le _ _ _).trans ((add_le_add m1 m6).trans ?_)
  refine le_trans ?_ (mul_le_mul_of_nonneg_right m5 (add_nonneg g1 g2))
  have m7 := mul_le_mul_of_nonneg_left m4 (by norm_num : (0 : ℚ) ≤ 1 / 2 ^ 53)
  rw [pow_succ _ n]
  generalize ((1 + 1 / 2 ^ 53) ^ n : ℚ) = k at *
  linarith

/-- C83: `LinearInequalityConstraintRepresentation` of a constraint between the results of two programs. -/
theorem program_linearIneq {l r : Prog F64} {q : ℕ} {ws : List (Var F64)} (h : LinearSides q l r ws) {s : Sense}
    (so : s.OK) : ∃ a b A c, l.run = .ok a ∧ r.run = .ok b ∧ (SCon.mk a b s).linearIneq [ws] = .ok (A, c) ∧
      RowFor l r ws s.sign A c := by
  obtain ⟨a, b, ha, hb, h1, h2, h3, h4⟩ := h.constraint so
  obtain ⟨A, c, e1, e2⟩ := linearIneq_rounding h1 h.ne h.ok h.nodup h2 h3
  exact ⟨a, b, A, c, ha, hb, e1, h4 _ _ _ (sign_cases _) e2⟩

/-- C83: `LinearEqualityConstraintRepresentation` of a constraint between the results of two programs. -/
theorem program_linearEq {l r : Prog F64} {q : ℕ} {ws : List (Var F64)} (h : LinearSides q l r ws) :
    ∃ a b A c, l.run = .ok a ∧ r.run = .ok b ∧ (SCon.mk a b .eq).linearEq [ws] = .ok (A, c) ∧ RowFor l r ws 1 A c := by
  obtain ⟨a, b, ha, hb, h1, h2, h3, h4⟩ := h.constraint (s := .eq) (.inl rfl)
  obtain ⟨A, c, e1, e2⟩ := linearEq_rounding h1 rfl h.ne h.ok h.nodup h2 h3
  exact ⟨a, b, A, c, ha, hb, e1, h4 _ _ _ (.inl rfl) e2⟩

/-! ## The hypotheses are met -/

instance {q : ℕ} {p : Prog F64} : Decidable (p.Safe q) :=
  decidable_of_iff (p.roundings ≤ 2 ^ 52 ∧ p.grid q ≤ 1074 ∧ p.size ≤ 2 ^ 1022 ∧ p.bound ≤ 2 ^ 53)
    ⟨fun h => ⟨h.1, h.2.1, h.2.2.1, h.2.2.2⟩, fun h => ⟨h.1, h.2, h.3, h.4⟩⟩

/-- `(x - 0.1)^2` with `0.1 y + 5` for `x`, and the derivative by `y`. -/
def roundProg : Prog F64 :=
  .deriv (.subst (.pow (.minus (.var (f64Var 1)) (.k (.fin f64Tenth))) 2) (f64Var 1)
    (.plus (.mul (.k (.fin f64Tenth)) (.var (f64Var 2))) (.k (.fin 5)))) (f64Var 2)

def Prog.decInRange (q : ℕ) : (p : Prog F64) → Decidable (p.InRange q)
  | .k c => inferInstanceAs (Decidable ((Prog.k c).Safe q))
  | .var v => inferInstanceAs (Decidable ((Prog.var v).Safe q))
  | .plus a b => @instDecidableAnd _ _ _ (@instDecidableAnd _ _ (a.decInRange q) (b.decInRange q))
  | .minus a b => @instDecidableAnd _ _ _ (@instDecidableAnd _ _ (a.decInRange q) (b.decInRange q))
  | .mul a b => @instDecidableAnd _ _ _ (@instDecidableAnd _ _ (a.decInRange q) (b.decInRange q))
  | .pow a _ => @instDecidableAnd _ _ _ (a.decInRange q)
  | .simp a => @instDecidableAnd _ _ _ (a.decInRange q)
  | .deriv a _ => @instDecidableAnd _ _ _ (a.decInRange q)
  | .subst a _ s => @instDecidableAnd _ _ _ (@instDecidableAnd _ _ (a.decInRange q) (s.decInRange q))
  | .substMap a _ _ val => @instDecidableAnd _ _ _ (@instDecidableAnd _ _ (a.decInRange q)
      (@Nat.decidableForallFin _ _ fun j => (val j).decInRange q))

instance {q : ℕ} {p : Prog F64} : Decidable (p.InRange q) := p.decInRange q

theorem float_tenth : F64.IsFloat (.fin f64Tenth) ∧ ∃ z : ℤ, F64.val (.fin f64Tenth) = z / 2 ^ 55 :=
  ⟨⟨f64Tenth, rfl, by decide +kernel⟩, 3602879701896397, by norm_num [F64.val, f64Tenth]⟩

theorem float_five : F64.IsFloat (.fin 5) ∧ ∃ z : ℤ, F64.val (.fin 5) = z / 2 ^ 55 :=
  ⟨⟨5, rfl, by decide +kernel⟩, 5 * 2 ^ 55, by norm_num [F64.val]⟩

theorem f64Vars_ok {p : Prog F64} (h : ∀ v, p.Names v → ∃ i, v = f64Var i) : p.VarsOK ∧
    ∀ v, p.Names v → v.lower ≠ .nan ∧ v.upper ≠ .nan := by
  refine ⟨⟨fun v hv => ?_, fun v w hv hw hid => ?_⟩, fun v hv => ?_⟩
  · obtain ⟨i, rfl⟩ := h v hv; rfl
  · obtain ⟨i, rfl⟩ := h v hv
    obtain ⟨j, rfl⟩ := h w hw
    obtain rfl : i = j := hid
    rfl
  · obtain ⟨i, rfl⟩ := h v hv
    exact ⟨by simp [f64Var], by simp [f64Var]⟩

theorem roundProg_ok : roundProg.FloatOK 55 := by
  obtain ⟨h1, h2⟩ := f64Vars_ok (p := roundProg) (fun v hv => by
    simp only [roundProg, Prog.Names] at hv
    tauto)
  refine ⟨h1, h2, ⟨⟨trivial, trivial⟩, ⟨trivial, trivial⟩, trivial⟩, fun c hc => ?_, by decide +kernel⟩
  simp only [roundProg, Prog.HasConst, false_or, or_false] at hc
  rcases hc with rfl | rfl | rfl
  · exact float_tenth
  · exact float_tenth
  · exact float_five

theorem roundProg_quadratic : roundProg.Quadratic := by
  simp [roundProg, Prog.Quadratic, Prog.deg]

/-- The derivative has 56 roundings at most. -/
example : ∃ e, roundProg.run = .ok e ∧ e.Floats ∧ ∀ d,
    |coeff d e.exact.den - coeff d roundProg.exact.meaning| ≤ 56 / 2 ^ 52 * coeff d roundProg.exact.absolute.meaning := by
  have := program_error roundProg_ok roundProg_quadratic.fits
  rwa [show roundProg.roundings = 56 by decide +kernel] at this

/-- `0.1 x + y` with `y - 0.1` for `x` and `5` for `y` at once. -/
def roundSide : Prog F64 :=
  .substMap (.plus (.mul (.k (.fin f64Tenth)) (.var (f64Var 1))) (.var (f64Var 2))) 2 ![f64Var 1, f64Var 2]
    ![.minus (.var (f64Var 2)) (.k (.fin f64Tenth)), .k (.fin 5)]

theorem roundSide_names {v : Var F64} (hv : roundSide.Names v) : v = f64Var 1 ∨ v = f64Var 2 := by
  simp only [roundSide, Prog.Names, Fin.exists_fin_two, Matrix.cons_val_zero, Matrix.cons_val_one] at hv
  tauto

theorem roundSide_ok : roundSide.FloatOK 55 := by
  obtain ⟨h1, h2⟩ := f64Vars_ok (p := roundSide) (fun v hv => (roundSide_names hv).elim (fun h => ⟨_, h⟩) fun h => ⟨_, h⟩)
  refine ⟨h1, h2, ⟨⟨⟨trivial, trivial⟩, trivial⟩, ?_, ?_⟩, fun c hc => ?_, by decide +kernel⟩
  · intro i j hij
    fin_cases i <;> fin_cases j <;> first | rfl | exact absurd (congrArg Var.id hij) (by decide)
  · intro j
    fin_cases j
    · exact ⟨trivial, trivial⟩
    · trivial
  · simp only [roundSide, Prog.HasConst, Fin.exists_fin_two, Matrix.cons_val_zero, Matrix.cons_val_one, false_or,
      or_false] at hc
    rcases hc with rfl | rfl | rfl
    · exact float_tenth
    · exact float_tenth
    · exact float_five

theorem roundSide_quadratic : roundSide.Quadratic ∧ roundSide.deg = 1 := by
  constructor
  · refine ⟨?_, ?_, ?_⟩
    · simp [Prog.Quadratic, Prog.deg]
    · intro j
      fin_cases j <;> simp [Prog.Quadratic]
    · decide +kernel
  · decide +kernel

/-- The sides of `0.1 (y - 0.1) + 5 ≤ x`. -/
theorem roundSides : LinearSides 55 roundSide (.var (f64Var 1)) [f64Var 1, f64Var 2] where
  left := roundSide_ok
  right := by
    obtain ⟨h1, h2⟩ := f64Vars_ok (p := .var (f64Var 1)) (fun v hv => ⟨1, hv⟩)
    exact ⟨h1, h2, trivial, fun c hc => hc.elim, by decide +kernel⟩
  qleft := roundSide_quadratic.1
  qright := by simp [Prog.Quadratic]
  dleft := roundSide_quadratic.2.le
  dright := le_rfl
  bounds := by
    rintro v (hv | rfl)
    · rcases roundSide_names hv with rfl | rfl <;> exact f64Var_bounds _
    · exact f64Var_bounds _
  size := by decide +kernel
  rounds := by decide +kernel
  ne := by simp
  ok := by
    intro w hw
    fin_cases hw <;> exact ⟨rfl, f64Var_bounds _⟩
  nodup := by decide
  covered := by
    rintro v (hv | rfl)
    · rcases roundSide_names hv with rfl | rfl <;> decide
    · decide

example : ∃ a b A c, roundSide.run = .ok a ∧ (Prog.var (f64Var 1)).run = .ok b ∧
    (SCon.mk a b .le).linearIneq [[f64Var 1, f64Var 2]] = .ok (A, c) ∧
    RowFor roundSide (.var (f64Var 1)) [f64Var 1, f64Var 2] 1 A c :=
  program_linearIneq roundSides (s := .le) (.inr (.inl rfl))

/-- The bound on `x^9` of a program in one variable: `(0.1 x + 5)^9`. -/
def roundPower : Prog F64 := .pow (.plus (.mul (.k (.fin f64Tenth)) (.var (f64Var 1))) (.k (.fin 5))) 9

example : ∃ e, roundPower.run = .ok e ∧
    e.Approx (univ1 1) roundPower.roundings roundPower.exact.meaning roundPower.exact.absolute.meaning := by
  obtain ⟨h1, h2⟩ := f64Vars_ok (p := roundPower) (fun v hv => by
    simp only [roundPower, Prog.Names] at hv
    tauto)
  refine program_rounding_oneVar (q := 55) ⟨h1, h2, ⟨⟨trivial, trivial⟩, trivial⟩, fun c hc => ?_, by decide +kernel⟩ ?_
  · simp only [roundPower, Prog.HasConst, or_false] at hc
    rcases hc with rfl | rfl
    · exact float_tenth
    · exact float_five
  · simp [roundPower, Prog.OneVar, f64Var]

/-! ## The hypotheses are needed -/

/-- A variable with a NaN bound, which passes `Check`. -/
def nanVar : Var F64 := ⟨1, .nan, .inf false, 67, "x", 0⟩

/-- C83 fails for variables with a NaN bound: a Go map never finds such a key, and `x` with `5` for `x` stays `x`. -/
theorem program_nan_bound_false : (Prog.substMap (.var nanVar) 1 ![nanVar] ![.k (.fin 5)]).run = .ok (.var nanVar) ∧
    nanVar.OK ∧ (Prog.substMap (.var nanVar) 1 ![nanVar] ![.k (.fin 5)]).exact.meaning = C 5 := by
  refine ⟨by rfl, rfl, ?_⟩
  show bind₁ _ (X _) = _
  rw [bind₁_X_right, dif_pos ⟨0, rfl⟩]
  have : ∀ j : Fin 1, (![Prog.k (F64.fin 5)] j).exact.meaning = C 5 := by
    intro j
    fin_cases j
    rfl
  exact this _

/-- C83 fails without the bound on the sizes: `2^600 x` squared has the coefficient `+Inf`. -/
theorem program_overflow_false : ∃ m, (Prog.pow (.mul (.k (.fin (2 ^ 600))) (.var (f64Var 1))) 2).run = .ok (.mono m) ∧
    m.coeff = .inf false := by
  exact ⟨⟨.inf false, [2], [f64Var 1]⟩, by decide +kernel, rfl⟩

end Verif
