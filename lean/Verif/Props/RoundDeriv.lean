import Verif.Props.Round
import Verif.Props.Deriv

/-!
# C73: rounding errors of derivatives

C09 says that `DerivativeWrt` is the partial derivative when numbers are exact.  On `float64` a coefficient is
multiplied by its exponent, once; nothing is collected.  So every coefficient of the result has at most one
rounding, for all well-formed expressions: no condition on the family of exponent vectors, and no underflow.
-/

set_option linter.unusedSectionVars false

namespace Verif

open MvPolynomial

/-! ## One term -/

theorem dyadics_mul_int {u : ℕ} {q : ℚ} (h : q ∈ dyadics u) (e : ℤ) : q * (e : ℚ) ∈ dyadics u := by
  have := (dyadics u).zsmul_mem h e
  rwa [zsmul_eq_mul, mul_comm] at this

/-- A float times an integer of at most 53 bits. -/
theorem mul_int_near {c : F64} (hc : c.IsFloat) {e : ℕ} (he : e ≤ 2 ^ 53) (hs : |c.val * e| ≤ 2 ^ 1023) :
    Near F64.rounding 1 (GoNum.mul c (GoNum.ofInt (e : ℤ))) (c.val * e) (|c.val| * e) := by
  obtain ⟨q, rfl, hq⟩ := hc
  have ha : F64.Able ((e : ℤ) : ℚ) := F64.able_small (by
    rw [abs_of_nonneg (by positivity)]; exact_mod_cast he)
  have e1 : (GoNum.ofInt (e : ℤ) : F64) = .fin ((e : ℤ) : ℚ) := ha
  have hn : F64.Normal (q * ((e : ℤ) : ℚ)) := by
    right
    exact dyadics_mul_int (F64.able_grid hq) _
  rw [e1]
  obtain ⟨h1, h2⟩ := F64.rounding.mul (x := .fin q) (y := .fin ((e : ℤ) : ℚ)) ⟨q, rfl, hq⟩ ⟨_, rfl, ha⟩
    (by
      show |q * ((e : ℤ) : ℚ)| ≤ 2 ^ 1023
      rw [Int.cast_natCast]; exact hs) hn
  refine ⟨h1, ?_, by rw [abs_mul, Nat.abs_cast]⟩
  rw [pow_one, add_sub_cancel_left]
  have e2 : F64.val (.fin q) * (e : ℚ) = F64.rounding.val (.fin q) * F64.rounding.val (.fin ((e : ℤ) : ℚ)) := by
    show q * (e : ℚ) = q * ((e : ℤ) : ℚ)
    push_cast; rfl
  have e3 : |F64.val (.fin q)| * (e : ℚ) = |F64.rounding.val (.fin q) * F64.rounding.val (.fin ((e : ℤ) : ℚ))| := by
    rw [← e2, abs_mul, Nat.abs_cast]
  rw [e2, e3]
  exact h2

/-- The derivative of one term. -/
theorem term_deriv {m : Mono F64} (hm : m.Canon) (hf : m.coeff.IsFloat) {v : Var F64} {r : Scalar F64}
    (h : DerivResult m v r) (he : m.degs v.id ≤ 2 ^ 53) (hs : |m.coeff.val * m.degs v.id| ≤ 2 ^ 1023) :
    ∃ a : Ann F64 ℚ, r.terms = [a.m] ∧ a.Ok F64.rounding ∧ a.n ≤ 1 ∧
      monomial a.m.degs a.x = pderiv v.id (vterm F64.rounding m) ∧
      monomial a.m.degs a.b = pderiv v.id (aterm F64.rounding m) ∧
      (a.m.degs + Finsupp.single v.id 1 = m.degs ∨ r = .k GoNum.zero) ∧
      (∀ c, r = .k c → GoNum.feq c GoNum.zero = true → a.x = 0 ∧ a.b = 0) := by
  have hv : vterm F64.rounding m = monomial m.degs m.coeff.val := by rw [vterm, F64.rounding_val]
  have ha : aterm F64.rounding m = monomial m.degs |m.coeff.val| := by rw [aterm, F64.rounding_val]
  have hfin : F64.rounding.Fin m.coeff := hf
  rw [hv, ha, pderiv_monomial, pderiv_monomial]
  have exact1 : ∀ c : F64, c = m.coeff → Near F64.rounding 0 c m.coeff.val |m.coeff.val| := by
    rintro _ rfl
    exact ⟨hfin, by rw [F64.rounding_val]; simp, le_refl _⟩
  cases h with
  | absent h =>
    have h0 : m.degs v.id = 0 := Mono.degs_apply_notMem hm.len h
    refine ⟨⟨kToMono GoNum.zero, 0, 0, 0⟩, rfl, ⟨F64.rounding.zero.1, ?_, by simp⟩, by simp, ?_, ?_, Or.inr rfl,
      fun _ _ _ => ⟨rfl, rfl⟩⟩
    · show |F64.rounding.val GoNum.zero - 0| ≤ _
      rw [F64.rounding.zero.2]; simp
    · rw [h0]; simp
    · rw [h0]; simp
  | linear w hv he2 hw =>
    have hd : m.degs = Finsupp.single v.id 1 := by
      rcases m with ⟨c, es, vs⟩
      simp only at hv he2
      subst hv he2
      rw [Var.degs_one, hw]
      rfl
    refine ⟨⟨kToMono m.coeff, 0, m.coeff.val, |m.coeff.val|⟩, rfl, exact1 _ rfl, by simp, ?_, ?_, Or.inl ?_, ?_⟩
    · rw [hd]; simp; rfl
    · rw [hd]; simp; rfl
    · rw [hd]; show 0 + _ = _; rw [zero_add]
    · intro c hc h0
      cases hc
      have := (F64.rounding.feq hfin F64.rounding.zero.1).mp h0
      rw [F64.rounding.zero.2, F64.rounding_val] at this
      simp [this]
  | erase d hd hv hc hdeg h1 =>
    refine ⟨⟨d, 0, m.coeff.val, |m.coeff.val|⟩, rfl, exact1 _ hc, by simp, ?_, ?_, Or.inl hdeg, fun c hc => by cases hc⟩
    · rw [h1, ← hdeg, add_tsub_cancel_right]; simp
    · rw [h1, ← hdeg, add_tsub_cancel_right]; simp
  | dec d e hd hv hc hdeg he' h2 =>
    refine ⟨⟨d, 1, m.coeff.val * m.degs v.id, |m.coeff.val| * m.degs v.id⟩, rfl, ?_, le_refl _, ?_, ?_,
      Or.inl hdeg, fun c hc => by cases hc⟩
    · show Near _ _ d.coeff _ _
      rw [hc]
      have e1 : e = ((m.degs v.id : ℕ) : ℤ) := by rw [he', Int.toNat_of_nonneg (by omega)]
      rw [e1]
      exact mul_int_near hf he hs
    · rw [← hdeg, add_tsub_cancel_right]
    · rw [← hdeg, add_tsub_cancel_right]

/-! ## A polynomial -/

/-- What is known about the terms collected so far. -/
structure DerivInv (v : Var F64) (l : List (Mono F64)) (A : List (Ann F64 ℚ)) : Prop where
  ok : ∀ a ∈ A, a.Ok F64.rounding ∧ a.n ≤ 1
  val : fsum A = pderiv v.id (vden F64.rounding l)
  abs : gsum A = pderiv v.id (aden F64.rounding l)
  count : ∀ d, (A.map fun a => a.m.degs).count d ≤ (l.map fun m => m.degs).count (d + Finsupp.single v.id 1)
  mem : ∀ a ∈ A, ∃ m ∈ l, a.m.degs + Finsupp.single v.id 1 = m.degs

theorem derivFold_ann {v : Var F64} (hv : v.OK) (l : List (Mono F64)) (hl : ∀ m ∈ l, m.Canon)
    (hf : ∀ m ∈ l, m.coeff.IsFloat) (he : ∀ m ∈ l, m.degs v.id ≤ 2 ^ 53)
    (hs : ∀ m ∈ l, |m.coeff.val * m.degs v.id| ≤ 2 ^ 1023) (l0 : List (Mono F64)) (A : List (Ann F64 ℚ))
    (hA : DerivInv v l0 A) {ms : List (Mono F64)} (h : l.foldlM (derivStep v) (A.map (·.m)) = .ok ms) :
    ∃ A', A'.map (·.m) = ms ∧ DerivInv v (l0 ++ l) A' := by
  induction l generalizing l0 A with
  | nil =>
    simp only [List.foldlM_nil, Go.pure_eq, Except.ok.injEq] at h
    exact ⟨A, h, by rw [List.append_nil]; exact hA⟩
  | cons m l ih =>
    rw [List.foldlM_cons] at h
    obtain ⟨acc, h1, h2⟩ := Go.bind_eq_ok.mp h
    have step : ∃ A1, A1.map (·.m) = acc ∧ DerivInv v (l0 ++ [m]) A1 := by
      have skip : pderiv v.id (vterm F64.rounding m) = 0 → pderiv v.id (aterm F64.rounding m) = 0 →
          DerivInv v (l0 ++ [m]) A := by
        intro z1 z2
        refine ⟨hA.ok, ?_, ?_, fun d => ?_, fun a ha => ?_⟩
        · rw [vden_append, map_add, hA.val, vden_cons, map_add, z1]; simp
        · rw [aden_append, map_add, hA.abs, aden_cons, map_add, z2]; simp
        · rw [List.map_append, List.count_append]
          exact (hA.count d).trans (Nat.le_add_right _ _)
        · obtain ⟨n, hn, e⟩ := hA.mem a ha
          exact ⟨n, by simp [hn], e⟩
      unfold derivStep at h1
      by_cases hc : m.isConstant = true
      · rw [if_pos hc] at h1
        simp only [Go.pure_eq, Except.ok.injEq] at h1
        have hv0 : m.vars = [] := by simpa [Mono.isConstant] using hc
        have hd : m.degs = 0 := (hl m (by simp)).degs_eq_zero.mpr hv0
        refine ⟨A, h1, skip ?_ ?_⟩
        · rw [vterm, hd]; simp
        · rw [aterm, hd]; simp
      · rw [if_neg hc] at h1
        obtain ⟨r, hr, h1⟩ := Go.bind_eq_ok.mp h1
        obtain ⟨r', hr', hres⟩ := Mono.derivative_ok (hl m (by simp)) hv
        rw [hr, Except.ok.injEq] at hr'
        subst hr'
        obtain ⟨a, a1, a2, a3, a4, a5, a6, a7⟩ := term_deriv (hl m (by simp)) (hf m (by simp)) hres (he m (by simp))
          (hs m (by simp))
        have add : (a.m.degs + Finsupp.single v.id 1 = m.degs) → DerivInv v (l0 ++ [m]) (A ++ [a]) := by
          intro hd
          refine ⟨?_, ?_, ?_, fun d => ?_, ?_⟩
          · intro b hb
            rcases List.mem_append.mp hb with hb | hb
            · exact hA.ok b hb
            · rw [List.mem_singleton] at hb; subst hb; exact ⟨a2, a3⟩
          · rw [fsum_append, hA.val, fsum_cons, fsum_nil, vden_append, vden_cons, map_add, map_add, a4]; simp
          · rw [gsum_append, hA.abs, gsum_cons, gsum_nil, aden_append, aden_cons, map_add, map_add, a5]; simp
          · rw [List.map_append, List.map_append, List.count_append, List.count_append]
            refine Nat.add_le_add (hA.count d) ?_
            simp only [List.map_cons, List.map_nil, List.count_singleton]
            by_cases e : a.m.degs = d
            · rw [if_pos (by simpa using e), if_pos (by rw [← hd, e]; simp)]
            · rw [if_neg (by simpa using e)]; exact Nat.zero_le _
          · intro b hb
            rcases List.mem_append.mp hb with hb | hb
            · obtain ⟨n, hn, e⟩ := hA.mem b hb
              exact ⟨n, by simp [hn], e⟩
            · rw [List.mem_singleton] at hb; subst hb; exact ⟨m, by simp, hd⟩
        cases r with
        | k c =>
          simp only at h1
          have e1 : kToMono c = a.m := by simpa [Scalar.terms] using a1
          by_cases hz : GoNum.feq c GoNum.zero = true
          · rw [if_pos hz] at h1
            simp only [Go.pure_eq, Except.ok.injEq] at h1
            obtain ⟨z1, z2⟩ := a7 c rfl hz
            refine ⟨A, h1, skip ?_ ?_⟩
            · rw [← a4, z1]; simp
            · rw [← a5, z2]; simp
          · rw [if_neg hz] at h1
            simp only [Go.pure_eq, Except.ok.injEq] at h1
            refine ⟨A ++ [a], by rw [List.map_append, ← h1, e1]; rfl, add ?_⟩
            rcases a6 with h | h
            · exact h
            · cases h; exact absurd rfl hz
        | mono d =>
          simp only [Go.pure_eq, Except.ok.injEq] at h1
          have e1 : d = a.m := by simpa [Scalar.terms] using a1
          refine ⟨A ++ [a], by rw [List.map_append, ← h1, e1]; rfl, add ?_⟩
          rcases a6 with h | h
          · exact h
          · cases h
        | var _ => cases hres
        | poly _ => cases hres
    obtain ⟨A1, rfl, hA1⟩ := step
    obtain ⟨A', e1, e2⟩ := ih (fun x hx => hl x (by simp [hx])) (fun x hx => hf x (by simp [hx]))
      (fun x hx => he x (by simp [hx])) (fun x hx => hs x (by simp [hx])) (l0 ++ [m]) A1 hA1 h2
    exact ⟨A', e1, by rw [List.append_assoc] at e2; exact e2⟩

/-! ## Every expression -/

/-- The family of exponent vectors of the derivatives of terms with exponent vectors in `D`. -/
def derivFamily (i : ℕ) (D : Set (ℕ →₀ ℕ)) : Set (ℕ →₀ ℕ) := {d | d + Finsupp.single i 1 ∈ D}

theorem term_noOverflow {l : List (Mono F64)} {i : ℕ} (h : NoOverflow 0 (pderiv i (aden F64.rounding l))) :
    ∀ m ∈ l, |m.coeff.val * m.degs i| ≤ 2 ^ 1023 := by
  intro m hm
  by_cases h0 : m.degs i = 0
  · rw [h0]; simp
  have hd : m.degs - Finsupp.single i 1 + Finsupp.single i 1 = m.degs := by
    refine tsub_add_cancel_of_le ?_
    rw [Finsupp.single_le_iff]; omega
  have h1 := h (m.degs - Finsupp.single i 1)
  rw [pow_zero, one_mul, coeff_pderiv, hd] at h1
  have h2 : (((m.degs - Finsupp.single i 1 : ℕ →₀ ℕ) i : ℕ) : ℚ) + 1 = m.degs i := by
    have := congrArg (fun g : ℕ →₀ ℕ => g i) hd
    simp only [Finsupp.add_apply, Finsupp.single_eq_same] at this
    exact_mod_cast this
  rw [h2, abs_mul, Nat.abs_cast, abs_of_nonneg (aden_nonneg _ _)] at h1
  rw [abs_mul, Nat.abs_cast]
  refine le_trans (mul_le_mul_of_nonneg_right ?_ (Nat.cast_nonneg _)) h1
  clear h h1 h2 hd h0
  induction l with
  | nil => cases hm
  | cons a l ih =>
    rw [aden_cons, coeff_add]
    rcases List.mem_cons.mp hm with rfl | hm
    · have e1 : coeff m.degs (aterm F64.rounding m) = |m.coeff.val| := by
        rw [aterm, coeff_monomial, if_pos rfl, F64.rounding_val]
      rw [e1]
      exact le_add_of_nonneg_right (aden_nonneg _ _)
    · exact (ih hm).trans (le_add_of_nonneg_left (coeff_monomial_nonneg (abs_nonneg _)))

/-- The derivative, in terms of the rounding model. -/
theorem derivative_appr {D : Set (ℕ →₀ ℕ)} {k : ℕ} {e : Scalar F64} (ce : e.Canon) (te : e.TermsIn D)
    (fe : e.Floats) (ke : e.Repeats k) {v : Var F64} (hv : v.OK) (he : ∀ m ∈ e.terms, m.degs v.id ≤ 2 ^ 53)
    (hG : NoOverflow 0 (pderiv v.id (ad F64.rounding e))) :
    ∃ r, e.derivative v = .ok r ∧ r.Canon ∧ r.TermsIn (derivFamily v.id D) ∧ r.Repeats k ∧
      Appr F64.rounding 1 r.terms (pderiv v.id (vd F64.rounding e)) (pderiv v.id (ad F64.rounding e)) := by
  obtain ⟨r, h1, h2, -⟩ := derivative_total ce hv
  have k1 : 1 ≤ k := (dopd_of ce te fe ke).pos
  have hs := term_noOverflow hG
  have key : r.TermsIn (derivFamily v.id D) ∧ r.Repeats k ∧
      Appr F64.rounding 1 r.terms (pderiv v.id (vd F64.rounding e)) (pderiv v.id (ad F64.rounding e)) := by
    have one : ∀ s : Scalar F64, (∃ m, s.terms = [m]) → s.Repeats k := by
      rintro s ⟨m, hm⟩ d
      rw [hm]
      exact List.count_le_length.trans (by simpa using k1)
    have single : ∀ m : Mono F64, m.Canon → m.coeff.IsFloat → (m.vars = [] ∨ m.degs ∈ D) → e.terms = [m] →
        DerivResult m v r → r.TermsIn (derivFamily v.id D) ∧ r.Repeats k ∧
          Appr F64.rounding 1 r.terms (pderiv v.id (vd F64.rounding e)) (pderiv v.id (ad F64.rounding e)) := by
      intro m hm hf hD ht hr
      have hmem : m ∈ e.terms := by rw [ht]; simp
      obtain ⟨a, a1, a2, a3, a4, a5, a6, -⟩ := term_deriv hm hf hr (he m hmem) (hs m hmem)
      refine ⟨?_, one r ⟨_, a1⟩, ?_⟩
      · cases hr with
        | absent => trivial
        | linear => trivial
        | erase d hd hv hc hdeg hd1 =>
          right
          rcases hD with hD | hD
          · rw [hm.degs_eq_zero.mpr hD] at hd1; simp at hd1
          · show _ + _ ∈ D
            rw [hdeg]; exact hD
        | dec d e' hd hv hc hdeg he' h2 =>
          right
          rcases hD with hD | hD
          · rw [hm.degs_eq_zero.mpr hD] at he'; simp at he'; omega
          · show _ + _ ∈ D
            rw [hdeg]; exact hD
      · have := appr_of_ann (F := F64.rounding) (A := [a]) (n := 1) (by simpa using a2) (by simpa using a3)
        rw [fsum_cons, gsum_cons, fsum_nil, gsum_nil, add_zero, add_zero, a4, a5, List.map_cons, List.map_nil,
          ← a1] at this
        unfold vd ad
        rw [ht, vden_cons, aden_cons]
        simpa using this
    cases e with
    | k c =>
      cases h1
      exact single (kToMono c) (goodM_const (P := fun _ => True) (D := Set.univ) c).canon
        (fe _ (List.mem_singleton.mpr rfl)) (Or.inl rfl) rfl (.absent (by simp [kToMono]))
    | var w =>
      have hw : w.OK := ce
      have hd : w.toMono.degs = Finsupp.single w.id 1 := by rw [Var.toMono, Var.degs_one]; rfl
      refine single w.toMono ⟨rfl, by simp [Var.toMono], by simp [Var.toMono], by simpa [Var.toMono] using hw⟩
        (fe _ (List.mem_singleton.mpr rfl)) (Or.inr (by rw [hd]; exact te)) rfl ?_
      simp only [Scalar.derivative, hw.check, hv.check, Go.ok_bind, Go.pure_eq] at h1
      split at h1
      · rename_i hid
        cases h1
        exact .linear (m := w.toMono) w rfl rfl hid
      · rename_i hid
        cases h1
        exact .absent (by simpa [Var.toMono] using fun h => hid h.symm)
    | mono m =>
      obtain ⟨r', h3, h4⟩ := Mono.derivative_ok (show m.Canon from ce) hv
      rw [show m.derivative v = .ok r from h1, Except.ok.injEq] at h3
      subst h3
      exact single m ce (fe m (by simp [Scalar.terms])) te rfl h4
    | poly p =>
      have hp : p.Canon := ce
      have h3 : p.derivative v = .ok r := h1
      unfold Poly.derivative at h3
      rw [show p.check = .ok () from Good.check (s := .poly p) (good_of_univ (s := .poly p) hp), hv.check, Go.ok_bind, Go.ok_bind] at h3
      obtain ⟨ms, h4, h5⟩ := Go.bind_eq_ok.mp h3
      obtain ⟨A, rfl, hA⟩ := derivFold_ann hv p.monos hp.all fe he hs [] []
        ⟨by simp, by simp, by simp, by simp, by simp⟩ h4
      rw [List.nil_append] at hA
      have hap := appr_of_ann (F := F64.rounding) (A := A) (n := 1) (fun a ha => (hA.ok a ha).1)
        (fun a ha => (hA.ok a ha).2)
      rw [hA.val, hA.abs] at hap
      by_cases hz : (A.map (·.m)).isEmpty = true
      · rw [if_pos hz] at h5
        cases h5
        refine ⟨trivial, one _ ⟨_, rfl⟩, ?_⟩
        rw [List.isEmpty_iff] at hz
        rw [hz] at hap
        refine hap.congr ?_ ?_ ?_
        · intro m hm
          rw [show m = kToMono GoNum.zero from List.mem_singleton.mp hm]
          exact F64.rounding.zero.1
        · show vden _ [_] = _
          rw [vden_cons, vterm_zero (m := kToMono GoNum.zero) F64.rounding.zero.2]; simp
        · show aden _ [_] = _
          rw [aden_cons, aterm_zero (m := kToMono GoNum.zero) F64.rounding.zero.2]; simp
      · rw [if_neg hz] at h5
        cases h5
        refine ⟨?_, ?_, hap⟩
        · intro m hm
          obtain ⟨a, ha, rfl⟩ := List.mem_map.mp hm
          obtain ⟨n, hn, hd⟩ := hA.mem a ha
          right
          rcases te n hn with h | h
          · have := (hp.all n hn).degs_eq_zero.mpr h
            rw [this] at hd
            have := congrArg (fun g : ℕ →₀ ℕ => g v.id) hd
            simp at this
          · show _ + _ ∈ D
            rw [hd]; exact h
        · intro d
          have := (hA.count d).trans (ke (d + Finsupp.single v.id 1))
          show ((A.map (·.m)).map fun m => m.degs).count d ≤ k
          rw [List.map_map]
          exact this
  exact ⟨r, h1, h2, key⟩

/-- C73: every coefficient of the derivative has at most one rounding; terms with the same exponent vector do not
become more. -/
theorem derivative_rounding {D : Set (ℕ →₀ ℕ)} {k : ℕ} {e : Scalar F64} (ce : e.Canon) (te : e.TermsIn D)
    (fe : e.Floats) (ke : e.Repeats k) {v : Var F64} (hv : v.OK) (he : ∀ m ∈ e.terms, m.degs v.id ≤ 2 ^ 53)
    (hG : NoOverflow 0 (pderiv v.id e.exact.absolute.den)) :
    ∃ r, e.derivative v = .ok r ∧ r.Canon ∧ r.TermsIn (derivFamily v.id D) ∧ r.Floats ∧ r.Repeats k ∧
      (∀ d, |coeff d r.exact.den - coeff d (pderiv v.id e.exact.den)| ≤
        1 / 2 ^ 53 * coeff d (pderiv v.id e.exact.absolute.den)) ∧
      ∀ d, coeff d r.exact.absolute.den ≤ (1 + 1 / 2 ^ 53) * coeff d (pderiv v.id e.exact.absolute.den) := by
  rw [Scalar.absolute_ad] at hG ⊢
  rw [Scalar.exact_vd]
  obtain ⟨r, h1, h2, h3, h4, h5⟩ := derivative_appr ce te fe ke hv he hG
  refine ⟨r, h1, h2, h3, h5.fin, h4, fun d => ?_, fun d => ?_⟩
  · have := h5.err d
    rw [Scalar.exact_vd]
    rwa [pow_one, show F64.rounding.u = 1 / 2 ^ 53 from rfl, add_sub_cancel_left] at this
  · have := h5.size d
    rw [Scalar.absolute_ad]
    rwa [pow_one] at this

/-- C73: the derivative of an approximation has one more rounding. -/
theorem approx_derivative {D : Set (ℕ →₀ ℕ)} (hD : D ⊆ flat) {n : ℕ} {f g : MvPolynomial ℕ ℚ} {a : Scalar F64}
    (ha : a.Approx D n f g) {v : Var F64} (hv : v.OK) (he : ∀ m ∈ a.terms, m.degs v.id ≤ 2 ^ 53)
    (hG : NoOverflow n (pderiv v.id g)) :
    ∃ r, a.derivative v = .ok r ∧ r.Approx (derivFamily v.id D) (n + 1) (pderiv v.id f) (pderiv v.id g) := by
  have hg : ∀ d, 0 ≤ coeff d g := fun d => (abs_nonneg _).trans (ha.le d)
  have up : ∀ {x y : MvPolynomial ℕ ℚ} {K : ℚ}, (∀ d, |coeff d x| ≤ K * coeff d y) →
      ∀ d, |coeff d (pderiv v.id x)| ≤ K * coeff d (pderiv v.id y) := by
    intro x y K h d
    rw [coeff_pderiv, coeff_pderiv, abs_mul, ← mul_assoc, abs_of_nonneg (by positivity : (0 : ℚ) ≤ d v.id + 1)]
    exact mul_le_mul_of_nonneg_right (h _) (by positivity)
  have size : ∀ d, coeff d (pderiv v.id (ad F64.rounding a)) ≤ (1 + 1 / 2 ^ 53) ^ n * coeff d (pderiv v.id g) := by
    intro d
    refine (le_abs_self _).trans (up (fun d => ?_) d)
    rw [abs_of_nonneg (aden_nonneg _ d), ← Scalar.absolute_ad]
    exact ha.size d
  obtain ⟨r, h1, h2, h3, h4, h5⟩ := derivative_appr (k := 1) ha.canon ha.terms ha.floats (approx_repeats hD ha) hv he
    (fun d => by
      rw [pow_zero, one_mul]
      have e1 : 0 ≤ coeff d (pderiv v.id (ad F64.rounding a)) := by
        rw [coeff_pderiv]; exact mul_nonneg (aden_nonneg _ _) (by positivity)
      rw [abs_of_nonneg e1]
      refine (size d).trans (le_trans ?_ (hG d))
      exact mul_le_mul_of_nonneg_left (le_abs_self _) (by positivity))
  have h6 := h5.trans (f := pderiv v.id f) (g := pderiv v.id g) (n := n) (fun d => by
      rw [← coeff_sub, ← map_sub]
      refine up (fun d => ?_) d
      rw [coeff_sub, ← Scalar.exact_vd]
      exact ha.err d) (fun d => by
      have := up (K := 1) (x := f) (y := g) (fun d => by rw [one_mul]; exact ha.le d) d
      rwa [one_mul] at this) size
  exact ⟨r, h1, approx_iff.mpr ⟨good_of h2 h3, keysLe_one.mp (DegsLe.keys h4), h6⟩⟩

/-- C73: the values of the derivative. -/
theorem derivative_value_rounding {e : Scalar F64} (ce : e.Canon) (fe : e.Floats) {v : Var F64} (hv : v.OK)
    (he : ∀ m ∈ e.terms, m.degs v.id ≤ 2 ^ 53) (hG : NoOverflow 0 (pderiv v.id e.exact.absolute.den)) :
    ∃ r, e.derivative v = .ok r ∧ ∀ ρ, |r.exact.value ρ - eval ρ (pderiv v.id e.exact.den)| ≤
      1 / 2 ^ 53 * eval (fun i => |ρ i|) (pderiv v.id e.exact.absolute.den) := by
  obtain ⟨r, h1, -, -, -, -, h2, -⟩ := derivative_rounding (D := Set.univ) (k := e.terms.length) ce
    (Scalar.termsIn_univ _) fe (fun d => by
      have := List.count_le_length (a := d) (l := e.terms.map fun m => m.degs)
      rwa [List.length_map] at this) hv he hG
  refine ⟨r, h1, fun ρ => ?_⟩
  unfold Scalar.value
  rw [← map_sub]
  refine eval_abs_le (by norm_num) (fun d => ?_) (fun d => ?_) ρ
  · rw [coeff_pderiv]
    exact mul_nonneg (absolute_coeff_nonneg _ _) (by positivity)
  · rw [coeff_sub]; exact h2 d

/-! ## The hypotheses are met -/

/-- `0.1 x^3 y + 5 x`. -/
def f64Cubic : Scalar F64 := .poly ⟨[⟨.fin f64Tenth, [3, 1], [f64Var 1, f64Var 2]⟩, ⟨.fin 5, [1], [f64Var 1]⟩]⟩

theorem f64Cubic_degs : f64Cubic.terms.map Mono.degs = [Finsupp.single 1 3 + Finsupp.single 2 1, Finsupp.single 1 1] := by
  simp [f64Cubic, Scalar.terms, Mono.degs, f64Var]

theorem f64Cubic_canon : f64Cubic.Canon := by
  refine ⟨by simp, fun m hm => ?_⟩
  fin_cases hm
  · exact ⟨rfl, by simp, by simp [f64Var], by intro v hv; fin_cases hv <;> rfl⟩
  · exact ⟨rfl, by simp, by simp, by intro v hv; fin_cases hv; rfl⟩

theorem f64Cubic_floats : f64Cubic.Floats := floatCheck_spec (by decide +kernel)

theorem f64Cubic_repeats : f64Cubic.Repeats 1 := by
  intro d
  refine List.nodup_iff_count_le_one.mp ?_ d
  rw [show (f64Cubic.terms.map fun m => m.degs) = _ from f64Cubic_degs]
  simp only [List.nodup_cons, List.mem_singleton, List.not_mem_nil, not_false_eq_true, List.nodup_nil, and_true]
  intro h
  have := congrArg (fun g : ℕ →₀ ℕ => g 2) h
  simp at this

theorem f64Cubic_exps : ∀ m ∈ f64Cubic.terms, m.degs (f64Var 1).id ≤ 2 ^ 53 := by
  have h : ∀ d ∈ f64Cubic.terms.map Mono.degs, d (f64Var 1).id ≤ 2 ^ 53 := by
    rw [f64Cubic_degs]
    intro d hd
    fin_cases hd <;> simp [f64Var]
  exact fun m hm => h _ (List.mem_map_of_mem hm)

theorem f64Cubic_fits : NoOverflow 0 (pderiv (f64Var 1).id f64Cubic.exact.absolute.den) := by
  refine noOverflow_of_sum (fun d => ?_) (by norm_num) ?_
  · rw [coeff_pderiv]
    exact mul_nonneg (absolute_coeff_nonneg _ _) (by positivity)
  · have h : eval (fun _ => 1) (pderiv (f64Var 1).id f64Cubic.exact.absolute.den) ≤ 6 := by
      simp [f64Cubic, Scalar.exact, Mono.exact, Scalar.absolute, Mono.absolute, Scalar.den, Poly.den, Mono.den,
        pderiv_monomial, eval_monomial, Mono.degs, Var.exact, f64Var, F64.val, f64Tenth]
      norm_num [abs_of_pos]
    have h3 := six_le 1 (by norm_num)
    rw [pow_one] at h3
    exact h.trans ((show (6 : ℚ) ≤ 6 + 6 by norm_num).trans h3)

example : ∃ r, f64Cubic.derivative (f64Var 1) = .ok r ∧ r.Canon ∧ r.TermsIn (derivFamily 1 Set.univ) ∧ r.Floats ∧
    r.Repeats 1 ∧ (∀ d, |coeff d r.exact.den - coeff d (pderiv 1 f64Cubic.exact.den)| ≤
      1 / 2 ^ 53 * coeff d (pderiv 1 f64Cubic.exact.absolute.den)) ∧
    ∀ d, coeff d r.exact.absolute.den ≤ (1 + 1 / 2 ^ 53) * coeff d (pderiv 1 f64Cubic.exact.absolute.den) :=
  derivative_rounding f64Cubic_canon (Scalar.termsIn_univ _) f64Cubic_floats f64Cubic_repeats (v := f64Var 1) rfl
    f64Cubic_exps f64Cubic_fits

example : ∃ r, f64Cubic.derivative (f64Var 1) = .ok r ∧ ∀ ρ,
    |r.exact.value ρ - eval ρ (pderiv 1 f64Cubic.exact.den)| ≤
      1 / 2 ^ 53 * eval (fun i => |ρ i|) (pderiv 1 f64Cubic.exact.absolute.den) :=
  derivative_value_rounding f64Cubic_canon f64Cubic_floats (v := f64Var 1) rfl f64Cubic_exps f64Cubic_fits

example : ∃ r, f64Lin.derivative (f64Var 1) = .ok r ∧ r.Approx (derivFamily 1 (degLE 1)) 1
    (pderiv 1 f64Lin.exact.den) (pderiv 1 f64Lin.exact.absolute.den) := by
  refine approx_derivative (fun _ hd => degLE_two_flat (le_trans (b := 1) hd (by decide)))
    (approx_self f64Lin_canon f64Lin_terms f64Lin_floats f64Lin_alike) (v := f64Var 1) rfl ?_ ?_
  · have h : ∀ d ∈ f64Lin.terms.map Mono.degs, d (f64Var 1).id ≤ 2 ^ 53 := by
      rw [f64Lin_degs]
      intro d hd
      fin_cases hd <;> simp [f64Var]
    exact fun m hm => h _ (List.mem_map_of_mem hm)
  · refine noOverflow_of_sum (fun d => ?_) (by norm_num) ?_
    · rw [coeff_pderiv]
      exact mul_nonneg (absolute_coeff_nonneg _ _) (by positivity)
    · have h : eval (fun _ => 1) (pderiv (f64Var 1).id f64Lin.exact.absolute.den) ≤ 6 := by
        simp [f64Lin, Scalar.exact, Mono.exact, Scalar.absolute, Mono.absolute, Scalar.den, Poly.den, Mono.den,
          pderiv_monomial, Mono.degs, Var.exact, f64Var, F64.val, f64Tenth]
        norm_num [abs_of_pos]
      have h3 := six_le 1 (by norm_num)
      rw [pow_one] at h3
      exact h.trans ((show (6 : ℚ) ≤ 6 + 6 by norm_num).trans h3)

/-- C09 without rounding errors is false on floats: the derivative of `0.1 x^3` is not three times the float
`0.1`. -/
theorem derivative_float_false : (Scalar.mono ⟨.fin f64Tenth, [3], [f64Var 1]⟩).derivative (f64Var 1) =
      .ok (.mono ⟨.fin (1351079888211149 / 4503599627370496), [2], [f64Var 1]⟩) ∧
    (1351079888211149 / 4503599627370496 : ℚ) ≠ f64Tenth * 3 := by
  exact ⟨by decide +kernel, by norm_num [f64Tenth]⟩

end Verif
