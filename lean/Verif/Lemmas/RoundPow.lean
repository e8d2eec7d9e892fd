import Verif.Lemmas.RoundMul
import Mathlib.Algebra.MvPolynomial.CommRing

/-!
# Rounding errors of composed operations and of `Power`
-/

set_option linter.unusedSectionVars false

namespace Verif

open MvPolynomial

variable {R K : Type} [GoNum R] [Field K] [LinearOrder K] [IsStrictOrderedRing K]
variable {F : RoundModel R K}
variable {P : Var R → Prop} {D D' D1 D2 D3 : Set (ℕ →₀ ℕ)}

theorem Opd.res {a : Scalar R} (h : Opd F P D 1 a) : Res F P D 0 (vd F a) (ad F a) a :=
  ⟨h.good, keysLe_one.mp h.keys, appr_self h.fin⟩

/-- Bounds carry over from the operands as approximated. -/
theorem fits_of_le {n k : ℕ} {g h : MvPolynomial ℕ K} (hg : ∀ d, 0 ≤ coeff d g)
    (hle : ∀ d, coeff d g ≤ (1 + F.u) ^ n * coeff d h) (hG : Fits F (n + k) h) : Fits F k g := by
  intro d
  have e1 := le_trans zero_le_one (one_le_pow_u F k)
  have e := mul_le_mul_of_nonneg_left (hle d) e1
  rw [← mul_assoc, ← pow_add, add_comm k n] at e
  exact small_le' (mul_nonneg e1 (hg d)) e (hG d)

theorem coeff_add_nonneg {g h : MvPolynomial ℕ K} (hg : ∀ d, 0 ≤ coeff d g) (hh : ∀ d, 0 ≤ coeff d h) (d) :
    0 ≤ coeff d (g + h) := by rw [coeff_add]; exact add_nonneg (hg d) (hh d)

theorem Res.plus (hD : RearrFree D) {n : ℕ} {f1 g1 f2 g2 : MvPolynomial ℕ K} {a b : Scalar R}
    (ha : Res F P D n f1 g1 a) (hb : Res F P D n f2 g2 b) (hG : Fits F (n + 1) (g1 + g2)) :
    Go.Ok (a.plus b) (Res F P D (n + 1) (f1 + f2) (g1 + g2)) := by
  refine (Scalar.plus_appr hD ha.opd hb.opd (fits_of_le (n := n) (k := 1) (coeff_add_nonneg (aden_nonneg _) (aden_nonneg _))
    (fun d => ?_) hG)).mono fun r hr => ⟨hr.good, hr.tidy, ha.appr.plus hb.appr hr.appr⟩
  rw [coeff_add, coeff_add, mul_add]
  exact add_le_add (ha.appr.size d) (hb.appr.size d)

theorem Res.minus (hD : RearrFree D) {n : ℕ} {f1 g1 f2 g2 : MvPolynomial ℕ K} {a b : Scalar R}
    (ha : Res F P D n f1 g1 a) (hb : Res F P D n f2 g2 b) (hG : Fits F (n + 1) (g1 + g2)) :
    Go.Ok (a.minus b) (Res F P D (n + 1) (f1 - f2) (g1 + g2)) := by
  refine (Scalar.minus_appr hD ha.opd hb.opd (fits_of_le (n := n) (k := 1) (coeff_add_nonneg (aden_nonneg _) (aden_nonneg _))
    (fun d => ?_) hG)).mono fun r hr => ⟨hr.good, hr.tidy, ?_⟩
  · rw [coeff_add, coeff_add, mul_add]
    exact add_le_add (ha.appr.size d) (hb.appr.size d)
  · refine hr.appr.trans (n := n) (fun d => ?_) (fun d => ?_) (fun d => ?_)
    · rw [coeff_sub, coeff_sub, coeff_add]
      have e1 := ha.appr.err d
      have e2 := hb.appr.err d
      have e3 := abs_sub (coeff d (vd F a) - coeff d f1) (coeff d (vd F b) - coeff d f2)
      rw [show coeff d (vd F a) - coeff d f1 - (coeff d (vd F b) - coeff d f2) =
        coeff d (vd F a) - coeff d (vd F b) - (coeff d f1 - coeff d f2) by ring] at e3
      linarith
    · rw [coeff_sub, coeff_add]
      exact (abs_sub _ _).trans (add_le_add (ha.appr.le d) (hb.appr.le d))
    · rw [coeff_add, coeff_add, mul_add]
      exact add_le_add (ha.appr.size d) (hb.appr.size d)

theorem Res.mul (h : ProdIn D1 D2 D3) (hD : RearrFree D3) (hD1 : D1 ⊆ flat) (hD2 : D2 ⊆ flat) {n n' : ℕ}
    {f1 g1 f2 g2 : MvPolynomial ℕ K} {a b : Scalar R} (ha : Res F P D1 n f1 g1 a) (hb : Res F P D2 n' f2 g2 b)
    (hN : NormalProds F a.terms b.terms) (hG : Fits F (n + n' + mulRounds 1 1 a b) (g1 * g2)) :
    Go.Ok (a.mul b) (Res F P D3 (n + n' + mulRounds 1 1 a b) (f1 * f2) (g1 * g2)) := by
  refine (Scalar.mul_appr h hD (ha.dopd hD1) (hb.dopd hD2) hN (fits_of_le (n := n + n')
    (coeff_mul_nonneg (aden_nonneg _) (aden_nonneg _)) (fun d => ?_) hG)).mono
    fun r hr => ⟨hr.good, hr.tidy, ha.appr.mul hb.appr hr.appr⟩
  rw [pow_add]
  exact coeff_mul_le (aden_nonneg _) (aden_nonneg _) (le_trans zero_le_one (one_le_pow_u F n)) ha.appr.size
    hb.appr.size d

theorem powLoop_snoc (base : Scalar R) (n : ℕ) (acc : Scalar R) :
    powLoop base (n + 1) acc = powLoop base n acc >>= fun r => r.mul base := by
  induction n generalizing acc with
  | zero => simp [powLoop]
  | succ n ih =>
    rw [powLoop]
    conv_rhs => rw [powLoop]
    simp only [bind_assoc]
    congr 1
    funext s
    exact ih s

theorem Scalar.power_zero {a : Scalar R} (ha : a.check = .ok ()) : a.power 0 = .ok (.k GoNum.one) := by
  unfold Scalar.power
  rw [ha, Go.ok_bind]
  rfl

theorem Scalar.power_succ {a : Scalar R} (ha : a.check = .ok ()) (n : ℕ) :
    a.power (n + 1 : ℕ) = a.power n >>= fun r => r.mul a := by
  unfold Scalar.power
  rw [ha, Go.ok_bind, Go.ok_bind, if_neg (by omega), if_neg (by omega), Int.toNat_natCast, Int.toNat_natCast]
  exact powLoop_snoc a n _

theorem NSum.le {n k : ℕ} {d} (h : NSum D n d) (hk : n ≤ k) : NSum D k d := by
  induction hk with
  | refl => exact h
  | step _ ih => exact ih.succ

theorem mulRounds_le {ka : ℕ} (hk : 1 ≤ ka) {a b : Scalar R} (hb : b.terms ≠ []) :
    mulRounds 1 ka a b ≤ ka + b.terms.length := by
  have : 1 ≤ b.terms.length := List.length_pos_of_ne_nil hb
  unfold mulRounds
  split
  · simp only [Scalar.terms]; omega
  · omega

/-- `Power`. -/
theorem Scalar.power_appr {k : ℕ} {a : Scalar R} (ha : DOpd F P D k a) (n : ℕ)
    (hD : {d | NSum D n d} ⊆ flat)
    (hN : ∀ i < n, ∀ r, a.power i = .ok r → NormalProds F r.terms a.terms)
    (hG : ∀ i ≤ n, Fits F (n * (k + a.terms.length)) (ad F a ^ i)) :
    Go.Ok (a.power n) (Res F P {d | NSum D n d} (n * (k + a.terms.length)) (vd F a ^ n) (ad F a ^ n)) := by
  obtain ⟨c, hc⟩ : ∃ c, c = k + a.terms.length := ⟨_, rfl⟩
  rw [← hc] at hG ⊢
  have hne := Scalar.terms_ne ha.good
  have nn : ∀ i d, 0 ≤ coeff d (ad F a ^ i) := by
    intro i
    induction i with
    | zero =>
      intro d
      rw [pow_zero, coeff_one]; split <;> simp
    | succ i ih => rw [pow_succ]; exact coeff_mul_nonneg ih (aden_nonneg _)
  have key : ∀ i ≤ n, Go.Ok (a.power i) (Res F P {d | NSum D i d} (i * c) (vd F a ^ i) (ad F a ^ i)) := by
    intro i
    induction i with
    | zero =>
      intro _
      rw [show ((0 : ℕ) : ℤ) = 0 from rfl, Scalar.power_zero ha.good.check]
      refine Go.ok_ok ?_
      have := (opd_k (P := P) (D := {d | NSum D 0 d}) F.one.1).res
      have e1 : vd F (.k GoNum.one) = (1 : MvPolynomial ℕ K) := by
        show vden F [_] = _
        rw [vden_single]
        show monomial 0 (F.val GoNum.one) = _
        rw [F.one.2]; rfl
      have e2 : ad F (.k GoNum.one) = (1 : MvPolynomial ℕ K) := by
        show aden F [_] = _
        rw [aden_single]
        show monomial 0 |F.val GoNum.one| = _
        rw [F.one.2, abs_one]; rfl
      rw [e1, e2] at this
      simpa using this
    | succ i ih =>
      intro hi
      rw [Scalar.power_succ ha.good.check]
      refine ((ih (by omega)).and (Q := fun r => NormalProds F r.terms a.terms) (hN i (by omega))).bind ?_
      rintro r ⟨hr, hNr⟩
      have hflat : {d | NSum D i d} ⊆ flat := fun d h => hD (NSum.le h (by omega))
      have hflat' : {d | NSum D (i + 1) d} ⊆ flat := fun d h => hD (NSum.le h (by omega))
      have hm : mulRounds 1 k r a ≤ c := by rw [hc]; exact mulRounds_le ha.pos hne
      have hle : ∀ d, coeff d (ad F r * ad F a) ≤ (1 + F.u) ^ (i * c) * coeff d (ad F a ^ i * ad F a) := by
        intro d
        have := coeff_mul_le (t := 1) (aden_nonneg (F := F) r.terms) (aden_nonneg (F := F) a.terms)
          (le_trans zero_le_one (one_le_pow_u F (i * c))) hr.appr.size (fun d => by rw [one_mul]) d
        rwa [mul_one] at this
      have hfit : Fits F (i * c + mulRounds 1 k r a) (ad F a ^ i * ad F a) := by
        rw [← pow_succ]
        intro d
        refine small_le ?_ (nn _ d) (le_refl _) (hG (i + 1) hi d)
        calc i * c + mulRounds 1 k r a ≤ (i + 1) * c := by rw [add_mul, one_mul]; omega
          _ ≤ n * c := Nat.mul_le_mul_right _ hi
      refine (Scalar.mul_appr (prodIn_nsum D i) (rearrFree_flat.mono hflat') (hr.dopd hflat) ha hNr
        (fits_of_le (coeff_mul_nonneg (aden_nonneg _) (aden_nonneg _)) hle hfit)).mono ?_
      intro r' hr'
      have := hr.appr.mul (appr_self ha.fin) hr'.appr
      rw [← pow_succ, ← pow_succ] at this
      exact ⟨hr'.good, hr'.tidy, this.weaken (by rw [add_mul, one_mul]; omega)⟩
  exact key n (le_refl _)

/-! ## Values -/

theorem eval_abs_le {h g : MvPolynomial ℕ K} {c : K} (hc : 0 ≤ c) (hg : ∀ d, 0 ≤ coeff d g)
    (hle : ∀ d, |coeff d h| ≤ c * coeff d g) (ρ : ℕ → K) : |eval ρ h| ≤ c * eval (fun i => |ρ i|) g := by
  classical
  have hp : ∀ d : ℕ →₀ ℕ, 0 ≤ ∏ i ∈ d.support, |ρ i| ^ d i :=
    fun d => Finset.prod_nonneg fun i _ => pow_nonneg (abs_nonneg _) _
  rw [eval_eq, eval_eq, Finset.mul_sum]
  refine (Finset.abs_sum_le_sum_abs _ _).trans ?_
  calc ∑ d ∈ h.support, |coeff d h * ∏ i ∈ d.support, ρ i ^ d i|
      ≤ ∑ d ∈ h.support, c * (coeff d g * ∏ i ∈ d.support, |ρ i| ^ d i) := by
        refine Finset.sum_le_sum fun d _ => ?_
        rw [abs_mul, Finset.abs_prod, ← mul_assoc]
        simp only [abs_pow]
        exact mul_le_mul_of_nonneg_right (hle d) (hp d)
    _ ≤ ∑ d ∈ h.support ∪ g.support, c * (coeff d g * ∏ i ∈ d.support, |ρ i| ^ d i) :=
        Finset.sum_le_sum_of_subset_of_nonneg Finset.subset_union_left
          fun d _ _ => mul_nonneg hc (mul_nonneg (hg d) (hp d))
    _ = ∑ d ∈ g.support, c * (coeff d g * ∏ i ∈ d.support, |ρ i| ^ d i) := by
        refine (Finset.sum_subset Finset.subset_union_right fun d _ hd => ?_).symm
        rw [notMem_support_iff.mp hd, zero_mul, mul_zero]

end Verif
