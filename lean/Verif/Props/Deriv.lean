import Mathlib.RingTheory.Derivation.Lie
import Verif.Lemmas.Deriv
import Verif.Witness

/-!
# C09: scalar differentiation (returned value)

The effect of `DerivativeWrt` on its operand is the subject of C10 (`Props/Heap.lean`).
-/

set_option linter.unusedSectionVars false

namespace Verif

open MvPolynomial

variable {R : Type}

section Struct
variable [GoNum R]

private theorem poly_check' {p : Poly R} (hp : p.Canon) : p.check = .ok () :=
  Good.check (s := .poly p) (good_of_univ (s := .poly p) hp)

/-- C09: `DerivativeWrt` of a well-formed expression by a valid variable does not panic, is well
formed, and mentions only variables of the expression (every number type). -/
theorem derivative_total {e : Scalar R} (he : e.Canon) {v : Var R} (hv : v.OK) :
    ∃ r, e.derivative v = .ok r ∧ r.Canon ∧ ∀ w, r.Mentions w → e.Mentions w := by
  cases e with
  | k c => exact ⟨_, rfl, trivial, fun _ h => h⟩
  | var u =>
    have hu : u.OK := he
    simp only [Scalar.derivative, hu.check, hv.check, Go.ok_bind, Go.pure_eq]
    split
    · exact ⟨_, rfl, trivial, fun _ h => h.elim⟩
    · exact ⟨_, rfl, trivial, fun _ h => h.elim⟩
  | mono m =>
    obtain ⟨r, h1, h2⟩ := Mono.derivative_ok he hv
    exact ⟨r, h1, h2.canon, fun w hw => h2.mentions hw⟩
  | poly p =>
    have hp : p.Canon := he
    show ∃ r, p.derivative v = .ok r ∧ _
    unfold Poly.derivative
    rw [poly_check' hp, hv.check, Go.ok_bind, Go.ok_bind]
    have hfold : Go.Ok (p.monos.foldlM (derivStep v) [])
        (fun l => ∀ d ∈ l, d.Canon ∧ ∀ w ∈ d.vars, ∃ m ∈ p.monos, w ∈ m.vars) := by
      apply Go.foldlM_ok
      · simp
      · intro acc m hm hacc
        unfold derivStep
        by_cases hc : m.isConstant = true
        · rw [if_pos hc]; exact Go.ok_pure hacc
        · rw [if_neg hc]
          obtain ⟨r, h1, h2⟩ := Mono.derivative_ok (hp.all m hm) hv
          rw [h1, Go.ok_bind]
          cases r with
          | k c =>
            simp only
            split
            · exact Go.ok_pure hacc
            · refine Go.ok_pure ?_
              intro d hd
              rcases List.mem_append.mp hd with hd | hd
              · exact hacc d hd
              · rw [List.mem_singleton] at hd
                subst hd
                exact ⟨(goodM_const (P := fun _ => True) (D := Set.univ) c).canon, by simp [kToMono]⟩
          | var _ => cases h2
          | poly _ => cases h2
          | mono d =>
            refine Go.ok_pure ?_
            intro d' hd
            rcases List.mem_append.mp hd with hd | hd
            · exact hacc d' hd
            · rw [List.mem_singleton] at hd
              subst hd
              exact ⟨h2.canon, fun w hw => ⟨m, hm, h2.mentions (w := w) hw⟩⟩
    obtain ⟨l, h1, h2⟩ := hfold
    rw [h1, Go.ok_bind]
    split
    · exact ⟨_, rfl, trivial, fun _ h => h.elim⟩
    · next hne =>
      refine ⟨_, rfl, ⟨by simpa using hne, fun d hd => (h2 d hd).1⟩, ?_⟩
      rintro w ⟨d, hd, hw⟩
      exact (h2 d hd).2 w hw

/-- C09, C43: a malformed variable is rejected by every kind except constants. -/
theorem derivative_bad_variable {e : Scalar R} (he : e.Canon) {v : Var R} (hv : ¬ v.OK)
    (hk : ∀ c, e ≠ .k c) : e.derivative v = .error .check := by
  have hvc : v.check = .error .check := by
    unfold Var.check
    unfold Var.OK at hv
    rw [if_pos (by simpa using hv)]
    rfl
  cases e with
  | k c => exact absurd rfl (hk c)
  | var u =>
    have hu : u.OK := he
    simp only [Scalar.derivative, hu.check, Go.ok_bind, hvc, Go.err_bind]
  | mono m =>
    have hm : m.Canon := he
    simp only [Scalar.derivative, Mono.derivative, hm.check, Go.ok_bind, hvc, Go.err_bind]
  | poly p =>
    simp only [Scalar.derivative, Poly.derivative, poly_check' he, Go.ok_bind, hvc, Go.err_bind]

end Struct

section Value
variable [Field R] [LinearOrder R]

/-- C09: `DerivativeWrt` denotes the formal partial derivative, for every well-formed expression and
every valid variable. -/
theorem derivative_denotes_pderiv {e : Scalar R} (he : e.Canon) {v : Var R} (hv : v.OK) :
    ∃ r, e.derivative v = .ok r ∧ r.Canon ∧ r.den = pderiv v.id e.den := by
  obtain ⟨r, h1, h2, -⟩ := derivative_total he hv
  refine ⟨r, h1, h2, ?_⟩
  cases e with
  | k c =>
    simp only [Scalar.derivative, Go.pure_eq, Except.ok.injEq] at h1
    subst h1
    simp
  | var u =>
    have hu : u.OK := he
    simp only [Scalar.derivative, hu.check, hv.check, Go.ok_bind, Go.pure_eq] at h1
    split at h1
    · next h =>
      rw [Except.ok.injEq] at h1
      subst h1
      rw [Scalar.den_var, h, pderiv_X_self]
      simp
    · next h =>
      rw [Except.ok.injEq] at h1
      subst h1
      rw [Scalar.den_var, pderiv_X_of_ne (fun h' => h h')]
      simp
  | mono m =>
    obtain ⟨r', h3, h4⟩ := Mono.derivative_ok he hv
    have h3' : (Scalar.mono m).derivative v = .ok r' := h3
    rw [h1, Except.ok.injEq] at h3'
    subst h3'
    exact h4.den he
  | poly p =>
    have hp : p.Canon := he
    have h1' : p.derivative v = .ok r := h1
    unfold Poly.derivative at h1'
    rw [poly_check' hp, hv.check, Go.ok_bind, Go.ok_bind] at h1'
    have hfold : Go.Ok (p.monos.foldlM (derivStep v) [])
        (fun l => lden l = pderiv v.id (lden p.monos)) := by
      apply Go.foldlM_ok' (derivStep v) (fun pre l => lden l = pderiv v.id (lden pre))
      · simp
      · rintro pre m acc ⟨post, hpost⟩ hacc
        have hm : m.Canon := hp.all m (by rw [hpost]; simp)
        unfold derivStep
        rw [lden_append, map_add, ← hacc]
        by_cases hc : m.isConstant = true
        · rw [if_pos hc]
          refine Go.ok_pure ?_
          have : m.vars = [] := by simpa [Mono.isConstant] using hc
          simp [Mono.den_of_vars_nil this]
        · rw [if_neg hc]
          obtain ⟨r, h3, h4⟩ := Mono.derivative_ok hm hv
          have h5 := h4.den hm
          rw [h3, Go.ok_bind]
          cases r with
          | k c =>
            simp only
            split
            · next h0 =>
              refine Go.ok_pure ?_
              have : c = 0 := by simpa using h0
              subst this
              simp only [lden_cons, lden_nil, add_zero, ← h5]
              simp
            · refine Go.ok_pure ?_
              simp only [lden_append, lden_cons, lden_nil, add_zero, ← h5, kToMono_den,
                Scalar.den_k]
          | var _ => cases h4
          | poly _ => cases h4
          | mono d =>
            refine Go.ok_pure ?_
            simp only [lden_append, lden_cons, lden_nil, add_zero, ← h5, Scalar.den_mono]
    obtain ⟨l, h3, h4⟩ := hfold
    rw [h3, Go.ok_bind] at h1'
    rw [Scalar.den_poly, ← h4]
    split at h1'
    · next hl =>
      rw [Go.pure_eq, Except.ok.injEq] at h1'
      subst h1'
      have : l = [] := by simpa using hl
      subst this
      simp
    · rw [Go.pure_eq, Except.ok.injEq] at h1'
      subst h1'
      rfl

private theorem pderiv_comm (i j : ℕ) (f : MvPolynomial ℕ R) :
    pderiv i (pderiv j f) = pderiv j (pderiv i f) := by
  have h : ⁅pderiv (R := R) i, pderiv (R := R) j⁆ = 0 := by
    apply MvPolynomial.derivation_ext
    intro k
    rw [Derivation.commutator_apply, pderiv_X, pderiv_X]
    simp only [Pi.single_apply]
    split <;> split <;> simp
  have := congrArg (fun D => D f) h
  simp only [Derivation.commutator_apply, Derivation.coe_zero, Pi.zero_apply] at this
  exact sub_eq_zero.mp this

/-- C09: differentiation is independent of the order of two variables (values only; the operand is
assumed unchanged between the calls, see C10). -/
theorem derivative_symmetric {e : Scalar R} (he : e.Canon) {v w : Var R} (hv : v.OK) (hw : w.OK) :
    ∃ a b a' b', e.derivative v = .ok a ∧ a.derivative w = .ok a' ∧
      e.derivative w = .ok b ∧ b.derivative v = .ok b' ∧ a'.den = b'.den := by
  obtain ⟨a, ha, ca, da⟩ := derivative_denotes_pderiv he hv
  obtain ⟨b, hb, cb, db⟩ := derivative_denotes_pderiv he hw
  obtain ⟨a', ha', -, da'⟩ := derivative_denotes_pderiv ca hw
  obtain ⟨b', hb', -, db'⟩ := derivative_denotes_pderiv cb hv
  refine ⟨a, b, a', b', ha, ha', hb, hb', ?_⟩
  rw [da', db', da, db, pderiv_comm]

end Value

/-- `d/dx (x^3*y + 4*x + 7) = 3*x^2*y + 4`. -/
example : (Scalar.poly ⟨[wm2 1 0 1 3 1, wm1 4 0 1, wm0 7]⟩).derivative wx =
    .ok (.poly ⟨[wm2 3 0 1 2 1, wm0 4]⟩) := by decide +kernel
/-- `d/dy (x^3*y) = x^3`. -/
example : (Scalar.mono (wm2 1 0 1 3 1)).derivative wy = .ok (.mono (wm1 1 0 3)) := by decide +kernel
example : (Scalar.poly ⟨[wm2 1 0 1 3 1, wm1 4 0 1, wm0 7]⟩ : Scalar ℚ).Canon :=
  ⟨by simp, by
    intro m hm
    simp only [List.mem_cons, List.not_mem_nil, or_false] at hm
    rcases hm with rfl | rfl | rfl
    · exact wm2_canon _ (by decide) (by decide) (by decide)
    · exact wm1_canon _ _ (by decide)
    · exact wm0_canon _⟩

end Verif
