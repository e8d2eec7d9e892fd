import Verif.Lemmas.Machine
import Verif.Props.ProgramTotal
import Verif.Witness

/-!
# C81: exponents and degrees kept in machine integers

Go keeps exponents and degrees in `int`.  The other files use unbounded integers.  Here: programs whose formal degree stays
below `2 ^ 63` never notice, whatever the number type; beyond it the library silently returns wrong results.
-/

set_option linter.unusedSectionVars false

namespace Verif

open MvPolynomial

variable {R : Type}

/-- The calls the program makes, on a machine that stores `w x` for the integer `x`. -/
def Prog.runW [GoNum R] (w : Int → Int) : Prog R → Go (Scalar R)
  | .k c => .ok (.k c)
  | .var v => .ok (.var v)
  | .plus a b => do (← a.runW w).plusW w (← b.runW w)
  | .minus a b => do (← a.runW w).minusW w (← b.runW w)
  | .mul a b => do (← a.runW w).mulW w (← b.runW w)
  | .pow a n => do (← a.runW w).powerW w n
  | .simp a => do (← a.runW w).asSimplifiedW w
  | .deriv a v => do (← a.runW w).derivativeW w v
  | .subst a v s => do (← a.runW w).substituteW w v (← s.runW w)
  | .substMap a n key val => do
    let e ← a.runW w
    let sm ← (List.finRange n).mapM (fun j => do
      let s ← (val j).runW w
      return (key j, s))
    e.substMapW w sm

/-- The formal degree of the result: what one gets by adding degrees in products and taking the larger in sums. -/
def Prog.bound : Prog R → ℕ
  | .k _ => 0
  | .var _ => 1
  | .plus a b | .minus a b => max a.bound b.bound
  | .mul a b => a.bound + b.bound
  | .pow a n => n * a.bound
  | .simp a | .deriv a _ => a.bound
  | .subst a _ s => a.bound * max 1 s.bound
  | .substMap a _ _ val => a.bound * max 1 (Finset.univ.sup fun j => (val j).bound)

/-- The largest formal degree of an intermediate result. -/
def Prog.peak : Prog R → ℕ
  | .k _ => 0
  | .var _ => 1
  | .plus a b => max a.peak b.peak
  | .minus a b => max a.peak b.peak
  | .mul a b => max (max a.peak b.peak) (a.bound + b.bound)
  | .pow a n => max a.peak (n * a.bound)
  | .simp a => a.peak
  | .deriv a _ => a.peak
  | .subst a _ s => max (max a.peak s.peak) (a.bound * max 1 s.bound)
  | .substMap a _ _ val => max (max a.peak (Finset.univ.sup fun j => (val j).peak))
      (a.bound * max 1 (Finset.univ.sup fun j => (val j).bound))

theorem Prog.bound_le_peak (p : Prog R) : p.bound ≤ p.peak := by
  induction p with
  | k c => exact le_rfl
  | var v => exact le_rfl
  | plus a b iha ihb => exact max_le_max iha ihb
  | minus a b iha ihb => exact max_le_max iha ihb
  | mul a b iha ihb => exact le_max_right _ _
  | pow a n iha => exact le_max_right _ _
  | simp a iha => exact iha
  | deriv a v iha => exact iha
  | subst a v s iha ihs => exact le_max_right _ _
  | substMap a n key val iha ihs => exact le_max_right _ _

section
variable [GoNum R]

/-- The steps of the machine and of the ideal run agree, and the result has at most the formal degree. -/
theorem Prog.runW_good {p : Prog R} (hv : ∀ v, p.Names v → v.OK) {w : Int → Int} {N : ℕ} (hw : KeepsUpTo w N)
    (hp : p.peak ≤ N) :
    p.runW w = p.run ∧ ∃ e, p.run = .ok e ∧ Good (fun _ => True) (degLE p.bound) e := by
  induction p with
  | k c => exact ⟨rfl, .k c, rfl, trivial⟩
  | var v => exact ⟨rfl, .var v, rfl, goodVar_up (hv v rfl) trivial le_rfl⟩
  | plus a b iha ihb =>
    obtain ⟨h1, x, hx, gx⟩ := iha (fun v h => hv v (.inl h)) (le_trans (le_max_left _ _) hp)
    obtain ⟨h2, y, hy, gy⟩ := ihb (fun v h => hv v (.inr h)) (le_trans (le_max_right _ _) hp)
    have gx' := gx.up (le_max_left a.bound b.bound)
    have gy' := gy.up (le_max_right a.bound b.bound)
    obtain ⟨r, hr, gr⟩ := Scalar.plus_good gx' gy'
    have hk : KeepsUpTo w (max a.bound b.bound) := hw.mono (le_trans (max_le_max a.bound_le_peak b.bound_le_peak) hp)
    refine ⟨?_, r, ?_, gr⟩
    · simp only [Prog.runW, Prog.run, h1, h2, hx, hy, Go.ok_bind, Scalar.plusW_eq hk gx' gy']
    · simp only [Prog.run, hx, hy, Go.ok_bind, hr]
  | minus a b iha ihb =>
    obtain ⟨h1, x, hx, gx⟩ := iha (fun v h => hv v (.inl h)) (le_trans (le_max_left _ _) hp)
    obtain ⟨h2, y, hy, gy⟩ := ihb (fun v h => hv v (.inr h)) (le_trans (le_max_right _ _) hp)
    have gx' := gx.up (le_max_left a.bound b.bound)
    have gy' := gy.up (le_max_right a.bound b.bound)
    obtain ⟨r, hr, gr⟩ := Scalar.minus_good gx' gy'
    have hk : KeepsUpTo w (max a.bound b.bound) := hw.mono (le_trans (max_le_max a.bound_le_peak b.bound_le_peak) hp)
    refine ⟨?_, r, ?_, gr⟩
    · simp only [Prog.runW, Prog.run, h1, h2, hx, hy, Go.ok_bind, Scalar.minusW_eq hk gx' gy']
    · simp only [Prog.run, hx, hy, Go.ok_bind, hr]
  | mul a b iha ihb =>
    obtain ⟨hp1, hp3⟩ := max_le_iff.mp hp
    obtain ⟨hp1, hp2⟩ := max_le_iff.mp hp1
    obtain ⟨h1, x, hx, gx⟩ := iha (fun v h => hv v (.inl h)) hp1
    obtain ⟨h2, y, hy, gy⟩ := ihb (fun v h => hv v (.inr h)) hp2
    obtain ⟨r, hr, gr⟩ := Scalar.mul_good (prodIn_degLE _ _) gx gy
    refine ⟨?_, r, ?_, gr⟩
    · simp only [Prog.runW, Prog.run, h1, h2, hx, hy, Go.ok_bind, Scalar.mulW_eq hw hp3 gx gy]
    · simp only [Prog.run, hx, hy, Go.ok_bind, hr]
  | pow a n iha =>
    obtain ⟨hp1, hp3⟩ := max_le_iff.mp hp
    obtain ⟨h1, x, hx, gx⟩ := iha hv hp1
    obtain ⟨r, hr, gr⟩ := Scalar.power_good gx (Int.natCast_nonneg n)
    refine ⟨?_, r, ?_, gr.weaken (fun _ h => h) (by rw [Int.toNat_natCast]; exact nsum_degLE _ _)⟩
    · simp only [Prog.runW, Prog.run, h1, hx, Go.ok_bind]
      exact Scalar.powerW_eq hw gx n (by rw [Int.toNat_natCast]; exact hp3)
    · simp only [Prog.run, hx, Go.ok_bind, hr]
  | simp a iha =>
    obtain ⟨h1, x, hx, gx⟩ := iha hv hp
    obtain ⟨r, hr, gr⟩ := Scalar.asSimplified_good gx
    refine ⟨?_, r, ?_, gr⟩
    · simp only [Prog.runW, Prog.run, h1, hx, Go.ok_bind,
        Scalar.asSimplifiedW_eq (hw.mono (a.bound_le_peak.trans hp)) gx]
    · simp only [Prog.run, hx, Go.ok_bind, hr]
  | deriv a v iha =>
    obtain ⟨h1, x, hx, gx⟩ := iha (fun v h => hv v (.inl h)) hp
    obtain ⟨r, hr, gr⟩ := Scalar.derivative_good gx (hv v (.inr rfl))
    refine ⟨?_, r, ?_, gr⟩
    · simp only [Prog.runW, Prog.run, h1, hx, Go.ok_bind,
        Scalar.derivativeW_eq (hw.mono (a.bound_le_peak.trans hp)) gx]
    · simp only [Prog.run, hx, Go.ok_bind, hr]
  | subst a v s iha ihs =>
    obtain ⟨hp1, hp3⟩ := max_le_iff.mp hp
    obtain ⟨hp1, hp2⟩ := max_le_iff.mp hp1
    obtain ⟨h1, x, hx, gx⟩ := iha (fun v h => hv v (.inl h)) hp1
    obtain ⟨h2, y, hy, gy⟩ := ihs (fun v h => hv v (.inr (.inr h))) hp2
    obtain ⟨e1, r, hr, gr⟩ := Scalar.substituteW_eq hw gx (hv v (.inr (.inl rfl))) gy hp3
    refine ⟨?_, r, ?_, gr⟩
    · simp only [Prog.runW, Prog.run, h1, h2, hx, hy, Go.ok_bind, e1]
    · simp only [Prog.run, hx, hy, Go.ok_bind, hr]
  | substMap a n key val iha ihs =>
    obtain ⟨hp1, hp3⟩ := max_le_iff.mp hp
    obtain ⟨hp1, hp2⟩ := max_le_iff.mp hp1
    obtain ⟨h1, x, hx, gx⟩ := iha (fun v h => hv v (.inl h)) hp1
    have h2 := fun j => ihs j (fun v h => hv v (.inr (.inr ⟨j, h⟩)))
      (le_trans (Finset.le_sup (f := fun j => (val j).peak) (Finset.mem_univ j)) hp2)
    choose h2 y hy gy using h2
    have hm1 := mapM_pairs (List.finRange n) key (f := fun j => (val j).run) (g := y) (fun j _ => hy j)
    have hm2 := mapM_pairs (List.finRange n) key (f := fun j => (val j).runW w) (g := y)
      (fun j _ => (h2 j).trans (hy j))
    have hg : GoodMap (fun _ => True) (Finset.univ.sup fun j => (val j).bound)
        ((List.finRange n).map (fun j => (key j, y j))) := by
      constructor
      · intro kv hkv
        obtain ⟨j, -, rfl⟩ := List.mem_map.mp hkv
        exact hv _ (.inr (.inl ⟨j, rfl⟩))
      · intro kv hkv
        obtain ⟨j, -, rfl⟩ := List.mem_map.mp hkv
        exact (gy j).up (Finset.le_sup (f := fun j => (val j).bound) (Finset.mem_univ j))
    obtain ⟨e1, r, hr, gr⟩ := Scalar.substMapW_eq hw gx hg hp3
    refine ⟨?_, r, ?_, gr⟩
    · simp only [Prog.runW, Prog.run, h1, hx, hm1, hm2, Go.ok_bind, e1]
    · simp only [Prog.run, hx, hm1, Go.ok_bind, hr]

/-- C81: a program whose formal degrees stay below `2 ^ (b - 1)` gives on a machine with `b`-bit integers exactly the result
it gives with unbounded integers — for every number type, floating point included. -/
theorem machine_run {p : Prog R} (hv : p.VarsOK) {b : ℕ} (hp : 2 * p.peak + 1 ≤ 2 ^ b) :
    p.runW (wrap b) = p.run :=
  (Prog.runW_good hv.ok (keeps_wrap hp) le_rfl).1

/-- C81, the model of the machine is the model used elsewhere when nothing is lost. -/
theorem machine_ideal {p : Prog R} (hv : p.VarsOK) : p.runW id = p.run :=
  (Prog.runW_good hv.ok (keeps_id p.peak) le_rfl).1

/-- C81: the same for what is read off the result: `Degree`, `IsLinear`, `IsQuadratic`, `LinearCoeff`, and the degree is at
most the formal one. -/
theorem machine_readings {p : Prog R} (hv : p.VarsOK) {b : ℕ} (hp : 2 * p.peak + 1 ≤ 2 ^ b) :
    ∃ e, p.runW (wrap b) = .ok e ∧ p.run = .ok e ∧ e.degreeW (wrap b) = e.degree ∧
      e.isLinearW (wrap b) = e.isLinear ∧ e.isQuadraticW (wrap b) = e.isQuadratic ∧
      (∀ wrt, e.linearCoeffW (wrap b) wrt = e.linearCoeff wrt) ∧ e.TermsIn (degLE p.bound) := by
  obtain ⟨h1, e, he, ge⟩ := Prog.runW_good hv.ok (keeps_wrap hp) le_rfl
  have hk : KeepsUpTo (wrap b) p.bound := (keeps_wrap hp).mono p.bound_le_peak
  exact ⟨e, h1.trans he, he, Scalar.degreeW_eq hk ge, Scalar.isLinearW_eq hk ge, Scalar.isQuadraticW_eq hk ge,
    fun wrt => Scalar.linearCoeffW_eq hk ge wrt, (good_iff.mp ge).2.1⟩

/-- C81 for single calls on well-formed expressions, however they were obtained. -/
theorem machine_calls {x y : Scalar R} {A B b : ℕ} (hx : x.Canon) (hy : y.Canon) (tx : x.TermsIn (degLE A))
    (ty : y.TermsIn (degLE B)) (hb : 2 * (A + B) + 1 ≤ 2 ^ b) :
    x.plusW (wrap b) y = x.plus y ∧ x.minusW (wrap b) y = x.minus y ∧ x.mulW (wrap b) y = x.mul y ∧
    x.asSimplifiedW (wrap b) = x.asSimplified ∧ x.degreeW (wrap b) = x.degree ∧
    ∀ v, x.derivativeW (wrap b) v = x.derivative v := by
  have hw := keeps_wrap hb
  have gx := good_of hx tx
  have gy := good_of hy ty
  have gx' : Good _ (degLE (A + B)) x := gx.up (by omega)
  have gy' : Good _ (degLE (A + B)) y := gy.up (by omega)
  exact ⟨Scalar.plusW_eq hw gx' gy', Scalar.minusW_eq hw gx' gy', Scalar.mulW_eq hw le_rfl gx gy,
    Scalar.asSimplifiedW_eq hw gx', Scalar.degreeW_eq hw gx', fun v => Scalar.derivativeW_eq hw gx' v⟩

/-- C81 for `Power`, `Substitute` and `SubstituteAccordingTo` on well-formed expressions. -/
theorem machine_calls_mul {x y : Scalar R} {A B b : ℕ} (hx : x.Canon) (hy : y.Canon) (tx : x.TermsIn (degLE A))
    (ty : y.TermsIn (degLE B)) {v : Var R} (hv : v.OK) :
    (∀ n : ℕ, 2 * (n * A) + 1 ≤ 2 ^ b → x.powerW (wrap b) n = x.power n) ∧
    (2 * (A * max 1 B) + 1 ≤ 2 ^ b → x.substituteW (wrap b) v y = x.substitute v y ∧
      x.substMapW (wrap b) [(v, y)] = x.substMap [(v, y)]) := by
  have gx := good_of hx tx
  have gy := good_of hy ty
  refine ⟨fun n hn => Scalar.powerW_eq (keeps_wrap hn) gx n (by rw [Int.toNat_natCast]), fun hb => ⟨?_, ?_⟩⟩
  · exact (Scalar.substituteW_eq (keeps_wrap hb) gx hv gy le_rfl).1
  · exact (Scalar.substMapW_eq (S := B) (keeps_wrap hb) gx ⟨by simpa using hv, by simpa using gy⟩ le_rfl).1

end

section
variable [Field R] [LinearOrder R]

/-- C81 with C62: such a program, when its terms are of one shape, gives on the machine an expression that denotes the
polynomial meant. -/
theorem machine_exact {p : Prog R} {D : Set (ℕ →₀ ℕ)} (hf : p.Fits D) (hv : p.VarsOK) (hk : p.Keys) {b : ℕ}
    (hp : 2 * p.peak + 1 ≤ 2 ^ b) :
    ∃ e, p.runW (wrap b) = .ok e ∧ e.Canon ∧ e.den = p.meaning := by
  obtain ⟨e, he⟩ := Prog.run_exact hf (U := p.Names) hv.ok hv.same (fun _ h => h) hk
  exact ⟨e, (machine_run hv hp).trans he.run, he.canon, he.den⟩

end

/-! ## What happens beyond -/

/-- `x`, squared `n` times: `x = x.Multiply(x)` in a loop. -/
def Prog.squares (v : Var R) : ℕ → Prog R
  | 0 => .var v
  | n + 1 => .mul (Prog.squares v n) (Prog.squares v n)

/-- The same loop, each step on the result of the step before. -/
def squareLoop [GoNum R] (w : Int → Int) : ℕ → Scalar R → Go (Scalar R)
  | 0, s => .ok s
  | n + 1, s => do
    let t ← s.mulW w s
    squareLoop w n t

theorem squareLoop_succ [GoNum R] (w : Int → Int) (n : ℕ) (s : Scalar R) :
    squareLoop w (n + 1) s = (do let t ← squareLoop w n s; t.mulW w t) := by
  induction n generalizing s with
  | zero =>
    show (do let t ← s.mulW w s; squareLoop w 0 t) = s.mulW w s
    cases s.mulW w s <;> rfl
  | succ n ih =>
    show (do let t ← s.mulW w s; squareLoop w (n + 1) t) = (do let t ← (do let t ← s.mulW w s; squareLoop w n t); t.mulW w t)
    cases s.mulW w s with
    | error e => rfl
    | ok t => exact ih t

theorem Prog.runW_squares [GoNum R] (w : Int → Int) (v : Var R) (n : ℕ) :
    (Prog.squares v n).runW w = squareLoop w n (.var v) := by
  induction n with
  | zero => rfl
  | succ n ih =>
    rw [squareLoop_succ, ← ih]
    show (do (← (Prog.squares v n).runW w).mulW w (← (Prog.squares v n).runW w)) = _
    cases (Prog.squares v n).runW w <;> rfl

theorem squares_meaning [CommRing R] (v : Var R) (n : ℕ) :
    (Prog.squares v n).meaning = (X v.id : MvPolynomial ℕ R) ^ 2 ^ n := by
  induction n with
  | zero => simp [Prog.squares, Prog.meaning]
  | succ n ih => rw [Prog.squares, Prog.meaning, ih, ← pow_add, pow_succ 2, mul_two]

theorem squares_peak (v : Var R) (n : ℕ) : (Prog.squares v n).peak = 2 ^ n ∧ (Prog.squares v n).bound = 2 ^ n := by
  induction n with
  | zero => exact ⟨rfl, rfl⟩
  | succ n ih =>
    obtain ⟨h1, h2⟩ := ih
    simp only [Prog.squares, Prog.peak, Prog.bound, h1, h2, max_self]
    constructor
    · rw [max_eq_right (by omega), pow_succ]; omega
    · rw [pow_succ]; omega

/-- Squaring `x` 62 times is still right on a 64-bit machine. -/
example : (Prog.squares wx 62).runW (wrap 64) = (Prog.squares wx 62).run := by
  refine machine_run ⟨?_, ?_⟩ ?_
  · have : ∀ n v, (Prog.squares wx n).Names v → v = wx := by
      intro n
      induction n with
      | zero => exact fun v h => h
      | succ n ih => exact fun v h => h.elim (ih v) (ih v)
    intro v hv
    rw [this 62 v hv]
    exact wv_ok 0
  · have : ∀ n v, (Prog.squares wx n).Names v → v = wx := by
      intro n
      induction n with
      | zero => exact fun v h => h
      | succ n ih => exact fun v h => h.elim (ih v) (ih v)
    intro v w hv hw _
    rw [this 62 v hv, this 62 w hw]
  · rw [(squares_peak wx 62).1]; norm_num

/-- One more: the exponent is negative, and `Check` does not object. -/
theorem machine_negative_false :
    (Prog.squares wx 63).runW (wrap 64) = .ok (.mono ⟨1, [-2 ^ 63], [wx]⟩) ∧
    (Scalar.mono ⟨1, [-2 ^ 63], [wx]⟩ : Scalar ℚ).check = .ok () := by
  rw [Prog.runW_squares]
  exact ⟨by decide +kernel, by decide +kernel⟩

/-- C81 fails without the bound: after 64 squarings the library holds `x ^ 0`, that is `1`, for `x ^ (2 ^ 64)`. -/
theorem machine_square_false :
    (Prog.squares wx 64).runW (wrap 64) = .ok (.mono ⟨1, [0], [wx]⟩) ∧
    (Scalar.mono ⟨1, [0], [wx]⟩ : Scalar ℚ).den = 1 ∧
    (Prog.squares wx 64).meaning = (X 0 : MvPolynomial ℕ ℚ) ^ 2 ^ 64 := by
  refine ⟨?_, ?_, squares_meaning wx 64⟩
  · rw [Prog.runW_squares]
    decide +kernel
  · simp [Scalar.den, Mono.den, Mono.degs]

/-- On a 32-bit machine 32 squarings do. -/
theorem machine_square32_false :
    (Prog.squares wx 32).runW (wrap 32) = .ok (.mono ⟨1, [0], [wx]⟩) := by
  rw [Prog.runW_squares]
  decide +kernel

/-- `x^(2^62) y^(2^62) z^(2^62) t^(2^62)`: four variables squared 62 times, multiplied. -/
private def wBig : Scalar ℚ := .mono ⟨1, [2 ^ 62, 2 ^ 62, 2 ^ 62, 2 ^ 62], [wv 0, wv 1, wv 2, wv 3]⟩

/-- The product of the four powers is represented correctly. -/
theorem machine_big_run :
    (Prog.mul (Prog.mul (Prog.mul (.squares (wv 0) 62) (.squares (wv 1) 62)) (.squares (wv 2) 62))
      (.squares (wv 3) 62)).runW (wrap 64) = .ok wBig := by
  simp only [Prog.runW, Prog.runW_squares]
  decide +kernel

/-- C81 fails without the bound for the readings: the degree of that product is reported as 0, and it counts as linear. -/
theorem machine_degree_false :
    wBig.degreeW (wrap 64) = .ok 0 ∧ wBig.isLinearW (wrap 64) = .ok true ∧ wBig.degree = .ok (2 ^ 64) := by
  exact ⟨by decide +kernel, by decide +kernel, by decide +kernel⟩

/-- Adding 1 to it loses it altogether: `Plus` returns the constant 1. -/
theorem machine_plus_false : wBig.plusW (wrap 64) (.k 1) = .ok (.k 1) ∧
    (wBig.value fun _ => 1) + 1 = 2 := by
  refine ⟨by decide +kernel, ?_⟩
  have : (wBig.value fun _ => 1) = 1 := by
    simp [Scalar.value, wBig, Scalar.den, Mono.den, eval_monomial, Finsupp.prod]
  rw [this]
  norm_num

/-! ## The hypotheses are met -/

/-- `d/dx ((x y + 3) (x - y))^5` with `y` replaced by `x^2`. -/
private def wProg : Prog ℚ :=
  .subst (.deriv (.pow (.mul (.plus (.mul (.var wx) (.var wy)) (.k 3)) (.minus (.var wx) (.var wy))) 5) wx) wy
    (.pow (.var wx) 2)

example : wProg.peak = 30 := by decide

example : wProg.runW (wrap 64) = wProg.run := by
  refine machine_run ⟨?_, ?_⟩ (by decide)
  all_goals simp only [wProg, Prog.Names]
  · rintro v h
    have : v = wx ∨ v = wy := by tauto
    rcases this with rfl | rfl <;> exact wv_ok _
  · rintro v w h h' hid
    have h1 : v = wx ∨ v = wy := by tauto
    have h2 : w = wx ∨ w = wy := by tauto
    rcases h1 with rfl | rfl <;> rcases h2 with rfl | rfl <;> simp_all [wv]

end Verif
