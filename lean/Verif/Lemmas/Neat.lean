import Verif.Lemmas.Constr
import Verif.Lemmas.Fixed
import Verif.Props.Deriv
import Verif.Props.Subst

/-!
# Results that write every term once

`Neat` is what `Constant`, `LinearCoeff` and `DerivativeWrt` need from their operand to be exact and
to return something of the same form.
-/

set_option linter.unusedSectionVars false

namespace Verif

open MvPolynomial

variable {R : Type} [Field R] [LinearOrder R]

/-- Not a constant written as a monomial. -/
def Scalar.NoConst (e : Scalar R) : Prop := ∀ m, e = .mono m → m.vars ≠ []

/-- No two terms have the same exponent vector. -/
def Scalar.Distinct : Scalar R → Prop
  | .poly p => (p.monos.map Mono.degs).Nodup
  | _ => True

theorem Scalar.Distinct.low {e : Scalar R} (h : e.Distinct) : e.LowDistinct := by
  cases e with
  | poly p =>
    refine (List.pairwise_map.mp h).imp ?_
    intro a b hab h'
    exact absurd h' hab
  | _ => trivial

/-- A simplified expression with flat terms writes every term once. -/
theorem distinct_of_fix {e : Scalar R} (he : e.Canon) (te : e.TermsIn flat)
    (hf : ∀ p, e = .poly p → e.asSimplified = .ok e) : e.Distinct := by
  cases e with
  | poly p =>
    have hfix := hf p rfl
    have hg := good_of he te
    obtain ⟨r, h1, q, hq, -, -, hr⟩ := Poly.asSimplified_ok hg.1 hg.2
    change p.asSimplified = _ at hfix
    rw [hfix, Except.ok.injEq] at h1
    subst h1
    have hnf := simplify_nf hg.1 hg.2 hq
    have := hnf.degs_nodup subset_rfl
    cases hr with
    | poly _ => exact this
  | _ => trivial

theorem simp_noConst {a r : Scalar R} (ha : a.Canon) (h : a.asSimplified = .ok r) :
    r.NoConst ∧ r.asSimplified = .ok r :=
  ⟨(Scalar.asSimplified_simple ha h).2, Scalar.simp_fix ha r h⟩

theorem plus_noConst {a b r : Scalar R} (ha : a.Canon) (hb : b.Canon) (h : a.plus b = .ok r) :
    r.NoConst ∧ r.asSimplified = .ok r :=
  ⟨(Scalar.plus_simple ha hb h).2, Scalar.plus_fix ha hb r h⟩

theorem minus_noConst {a b r : Scalar R} (ha : a.Canon) (hb : b.Canon) (h : a.minus b = .ok r) :
    r.NoConst ∧ r.asSimplified = .ok r := by
  refine ⟨(Scalar.minus_simple ha hb h).2, ?_⟩
  unfold Scalar.minus at h
  rw [(good_of_univ ha).check, (good_of_univ hb).check, Go.ok_bind, Go.ok_bind] at h
  obtain ⟨s, hs, h2⟩ := Scalar.mulF64_good (good_of_univ hb) (negOne : R)
  rw [hs, Go.ok_bind] at h
  rw [good_iff] at h2
  exact Scalar.plus_fix ha h2.1 r h

/-- Products of operands that are not constant monomials: not a constant monomial, and simplified
when it is a polynomial. -/
theorem mul_noConst {a b r : Scalar R} (ha : a.Canon) (hb : b.Canon) (na : a.NoConst)
    (nb : b.NoConst) (h : a.mul b = .ok r) :
    r.NoConst ∧ ∀ p, r = .poly p → r.asSimplified = .ok r := by
  have fix : ∀ {x y : Scalar R}, x.Canon → y.Canon →
      (x.isMono = true → y.isPoly = true) ∧ (y.isMono = true → x.isK = false) →
      x.mul y = .ok r → r.NoConst ∧ ∀ p, r = .poly p → r.asSimplified = .ok r := by
    intro x y hx hy hn h
    have hf := Scalar.mul_fix hx hy hn r h
    have hc := Scalar.mul_canon hx hy r h
    exact ⟨(Scalar.asSimplified_simple hc hf).2, fun _ _ => hf⟩
  have one : ∀ m : Mono R, m.vars ≠ [] → r = .mono m →
      r.NoConst ∧ ∀ p, r = .poly p → r.asSimplified = .ok r := by
    rintro m hm rfl
    refine ⟨?_, fun p hp => (by cases hp)⟩
    intro m' hm'
    rw [Scalar.mono.injEq] at hm'
    exact hm' ▸ hm
  have nz : ∀ {m : Mono R}, m.Canon → m.degs ≠ 0 → m.vars ≠ [] :=
    fun hm hd hv => hd (hm.degs_eq_zero.mpr hv)
  have addne : ∀ {x y : ℕ →₀ ℕ}, x ≠ 0 → x + y ≠ 0 := by
    intro x y hx h
    obtain ⟨i, hi⟩ := Finsupp.ne_iff.mp hx
    have := DFunLike.congr_fun h i
    simp only [Finsupp.add_apply, Finsupp.zero_apply] at this hi
    omega
  have monoAny : ∀ m : Mono R, m.Canon → m.vars ≠ [] → ∀ e : Scalar R, e.Canon →
      e.isPoly = false → m.mul e = .ok r →
      r.NoConst ∧ ∀ p, r = .poly p → r.asSimplified = .ok r := by
    intro m hm hv e he hp h
    have hmz : m.degs ≠ 0 := fun h0 => hv (hm.degs_eq_zero.mp h0)
    unfold Mono.mul at h
    rw [hm.check, (good_of_univ he).check, Go.ok_bind, Go.ok_bind] at h
    cases e with
    | k c =>
      simp only [Go.pure_eq, Except.ok.injEq] at h
      exact one (m.mulK c) hv h.symm
    | var v =>
      simp only [Go.pure_eq, Except.ok.injEq] at h
      obtain ⟨h1, h2, -⟩ := Mono.mulVar_spec hm (v := v) he
      exact one _ (nz h1 (h2 ▸ addne hmz)) h.symm
    | mono m' =>
      obtain ⟨q, h1, h2, h3, -⟩ := Mono.mulMono_ok hm (r := m') he
      simp only [h1, Go.ok_bind, Go.pure_eq, Except.ok.injEq] at h
      exact one _ (nz h2 (h3 ▸ addne hmz)) h.symm
    | poly p => cases hp
  cases a with
  | mono m =>
    by_cases hp : b.isPoly = true
    · refine fix ha hb ⟨fun _ => hp, fun hm => ?_⟩ h
      cases b <;> simp [Scalar.isPoly, Scalar.isMono] at hp hm
    · exact monoAny m ha (na m rfl) b hb (by simpa using hp) h
  | k c =>
    by_cases hm : b.isMono = true
    · cases b with
      | mono m =>
        have h' : (do (Scalar.mono m).check; m.mul (.k c)) = .ok r := h
        rw [(good_of_univ hb).check, Go.ok_bind] at h'
        exact monoAny m hb (nb m rfl) (.k c) trivial rfl h'
      | _ => cases hm
    · exact fix ha hb ⟨fun h => (by cases h), fun h => absurd h hm⟩ h
  | var v => exact fix ha hb ⟨fun h => (by cases h), fun _ => rfl⟩ h
  | poly p => exact fix ha hb ⟨fun h => (by cases h), fun _ => rfl⟩ h

/-- The loop of `Power`. -/
theorem powLoop_noConst {b : Scalar R} (hb : b.Canon) (nb : b.NoConst) (n : ℕ) {acc r : Scalar R}
    (ha : acc.Canon) (na : acc.NoConst) (fa : ∀ p, acc = .poly p → acc.asSimplified = .ok acc)
    (h : powLoop b n acc = .ok r) : r.Canon ∧ r.NoConst ∧ ∀ p, r = .poly p → r.asSimplified = .ok r := by
  induction n generalizing acc with
  | zero =>
    simp only [powLoop, Go.pure_eq, Except.ok.injEq] at h
    exact h ▸ ⟨ha, na, fa⟩
  | succ n ih =>
    obtain ⟨x, h1, h2⟩ := Go.bind_eq_ok.mp h
    obtain ⟨n1, n2⟩ := mul_noConst ha hb na nb h1
    exact ih (Scalar.mul_canon ha hb x h1) n1 n2 h2

theorem power_noConst {b r : Scalar R} (hb : b.Canon) (nb : b.NoConst) {n : ℤ}
    (h : b.power n = .ok r) : r.NoConst ∧ ∀ p, r = .poly p → r.asSimplified = .ok r := by
  unfold Scalar.power at h
  rw [(good_of_univ hb).check, Go.ok_bind] at h
  by_cases hn : n < 0
  · rw [if_pos hn] at h; cases h
  · rw [if_neg hn] at h
    exact (powLoop_noConst hb nb n.toNat (acc := .k GoNum.one) trivial (fun _ h => (by cases h))
      (fun _ h => (by cases h)) h).2

/-! ## Substitution -/

/-- The loop of `Substitute` and `SubstituteAccordingTo` of monomials, for any replacement of the
variables by expressions that are not constant monomials. -/
theorem subLoop_noConst {f : Var R → Go (Scalar R)} (l : List (Var R × ℤ))
    (hf : ∀ ve ∈ l, ∀ s, f ve.1 = .ok s → s.Canon ∧ s.NoConst) {acc r : Scalar R}
    (ha : acc.Canon) (na : acc.NoConst) (fa : ∀ p, acc = .poly p → acc.asSimplified = .ok acc)
    (h : l.foldlM (fun prod ve => do
      let sub ← f ve.1
      let pw ← sub.power ve.2
      prod.mul pw) acc = .ok r) :
    r.Canon ∧ r.NoConst ∧ ∀ p, r = .poly p → r.asSimplified = .ok r := by
  induction l generalizing acc with
  | nil =>
    simp only [List.foldlM_nil, Go.pure_eq, Except.ok.injEq] at h
    exact h ▸ ⟨ha, na, fa⟩
  | cons ve l ih =>
    rw [List.foldlM_cons] at h
    obtain ⟨x, h1, h2⟩ := Go.bind_eq_ok.mp h
    obtain ⟨s, h3, h4⟩ := Go.bind_eq_ok.mp h1
    obtain ⟨w, h5, h6⟩ := Go.bind_eq_ok.mp h4
    obtain ⟨c1, c2⟩ := hf ve (by simp) s h3
    obtain ⟨n1, -⟩ := power_noConst c1 c2 h5
    have cw : w.Canon := by
      by_cases hn : 0 ≤ ve.2
      · obtain ⟨w', e1, e2, -⟩ := power_total c1 hn
        rw [h5, Except.ok.injEq] at e1
        exact e1 ▸ e2
      · rw [power_negative c1 (by omega)] at h5
        cases h5
    obtain ⟨m1, m2⟩ := mul_noConst ha cw na n1 h6
    exact ih (fun ve h => hf ve (by simp [h])) (Scalar.mul_canon ha cw x h6) m1 m2 h2

theorem var_substitute_noConst {w v : Var R} {s r : Scalar R} (hw : w.OK) (hs : s.Canon)
    (ns : s.NoConst) (h : w.substitute v s = .ok r) : r.Canon ∧ r.NoConst := by
  unfold Var.substitute at h
  obtain ⟨-, -, h⟩ := Go.bind_eq_ok.mp h
  obtain ⟨-, -, h⟩ := Go.bind_eq_ok.mp h
  obtain ⟨-, -, h⟩ := Go.bind_eq_ok.mp h
  split at h
  · simp only [Go.pure_eq, Except.ok.injEq] at h
    exact h ▸ ⟨hs, ns⟩
  · simp only [Go.pure_eq, Except.ok.injEq] at h
    exact h ▸ ⟨hw, fun _ h => (by cases h)⟩

/-- `Substitute` into and by expressions that are not constant monomials; the result is the replaced
expression itself or simplified when it is a polynomial. -/
theorem substitute_noConst {e s r : Scalar R} {v : Var R} (he : e.Canon) (ne : e.NoConst)
    (hs : s.Canon) (ns : s.NoConst) (h : e.substitute v s = .ok r) :
    r.NoConst ∧ ((∀ p, r = .poly p → r.asSimplified = .ok r) ∨ r = s) := by
  cases e with
  | k c =>
    simp only [Scalar.substitute, Go.pure_eq, Except.ok.injEq] at h
    exact h ▸ ⟨fun _ h => (by cases h), Or.inl fun _ h => (by cases h)⟩
  | var w =>
    refine ⟨(var_substitute_noConst (v := v) he hs ns h).2, ?_⟩
    change w.substitute v s = .ok r at h
    unfold Var.substitute at h
    obtain ⟨-, -, h⟩ := Go.bind_eq_ok.mp h
    obtain ⟨-, -, h⟩ := Go.bind_eq_ok.mp h
    obtain ⟨-, -, h⟩ := Go.bind_eq_ok.mp h
    split at h
    · simp only [Go.pure_eq, Except.ok.injEq] at h
      exact Or.inr h.symm
    · simp only [Go.pure_eq, Except.ok.injEq] at h
      exact h ▸ Or.inl fun _ h => (by cases h)
  | mono m =>
    change m.substitute v s = .ok r at h
    unfold Mono.substitute at h
    obtain ⟨-, -, h⟩ := Go.bind_eq_ok.mp h
    obtain ⟨-, -, h⟩ := Go.bind_eq_ok.mp h
    obtain ⟨-, -, h⟩ := Go.bind_eq_ok.mp h
    cases hf : findVar v m.vars with
    | none =>
      simp only [hf, Go.pure_eq, Except.ok.injEq] at h
      exact h ▸ ⟨ne, Or.inl fun _ h => (by cases h)⟩
    | some i =>
      simp only [hf] at h
      have hm : m.Canon := he
      obtain ⟨-, h1, h2⟩ := subLoop_noConst (f := fun w => w.substitute v s) _
        (fun ve hve s' hs' => var_substitute_noConst (hm.ok _ (List.of_mem_zip hve).1) hs ns hs')
        (acc := .k m.coeff) trivial (fun _ h => (by cases h)) (fun _ h => (by cases h)) h
      exact ⟨h1, Or.inl h2⟩
  | poly p =>
    change p.substitute v s = .ok r at h
    have hp : p.Canon := he
    unfold Poly.substitute at h
    obtain ⟨-, -, h⟩ := Go.bind_eq_ok.mp h
    obtain ⟨_, h0, h⟩ := Go.bind_eq_ok.mp h
    obtain ⟨-, -, h⟩ := Go.bind_eq_ok.mp h
    obtain ⟨x, h1, h2⟩ := Go.bind_eq_ok.mp h
    have hv : v.OK := Var.check_ok_iff.mp h0
    have hx : x.Canon := by
      have hpost : ∀ l : List (Mono R), (∀ m ∈ l, m.Canon) → ∀ acc y : Scalar R, acc.Canon →
          l.foldlM (fun acc m => do
            let t ← m.substitute v s
            acc.plus t) acc = .ok y → y.Canon := by
        intro l hl
        induction l with
        | nil =>
          intro acc y ha h
          simp only [List.foldlM_nil, Go.pure_eq, Except.ok.injEq] at h
          exact h ▸ ha
        | cons m l ih =>
          intro acc y ha h
          rw [List.foldlM_cons] at h
          obtain ⟨z, h3, h4⟩ := Go.bind_eq_ok.mp h
          obtain ⟨t, h5, h6⟩ := Go.bind_eq_ok.mp h3
          obtain ⟨t', e1, e2, -⟩ := substitute_total (e := .mono m) (hl m (by simp)) hv hs
          change m.substitute v s = _ at e1
          rw [h5, Except.ok.injEq] at e1
          subst e1
          exact ih (fun m hm => hl m (by simp [hm])) z y (Scalar.plus_canon ha e2 z h6) h4
      exact hpost p.monos hp.all (.k GoNum.zero) x trivial h1
    obtain ⟨h3, h4⟩ := simp_noConst hx h2
    exact ⟨h3, Or.inl fun _ _ => h4⟩

theorem var_substMap_noConst {w : Var R} {sm : SubMap R} {r : Scalar R} (hw : w.OK)
    (hs : ∀ kv ∈ sm, kv.2.Canon ∧ kv.2.NoConst) (h : w.substMap sm = .ok r) :
    (r.Canon ∧ r.NoConst) ∧ (r = .var w ∨ ∃ kv ∈ sm, r = kv.2) := by
  unfold Var.substMap at h
  obtain ⟨-, -, h⟩ := Go.bind_eq_ok.mp h
  obtain ⟨-, -, h⟩ := Go.bind_eq_ok.mp h
  cases hl : sm.lookup w with
  | none =>
    simp only [hl, Go.pure_eq, Except.ok.injEq] at h
    exact h ▸ ⟨⟨hw, fun _ h => (by cases h)⟩, Or.inl rfl⟩
  | some s =>
    simp only [hl, Go.pure_eq, Except.ok.injEq] at h
    subst h
    unfold SubMap.lookup at hl
    rw [Option.map_eq_some_iff] at hl
    obtain ⟨kv, h1, rfl⟩ := hl
    have := List.mem_of_find?_eq_some h1
    exact ⟨hs kv this, Or.inr ⟨kv, this, rfl⟩⟩

theorem mono_substMap_noConst {m : Mono R} {sm : SubMap R} {r : Scalar R} (hm : m.Canon)
    (hs : ∀ kv ∈ sm, kv.2.Canon ∧ kv.2.NoConst) (h : m.substMap sm = .ok r) :
    r.Canon ∧ r.NoConst ∧ ∀ p, r = .poly p → r.asSimplified = .ok r := by
  unfold Mono.substMap at h
  obtain ⟨-, -, h⟩ := Go.bind_eq_ok.mp h
  obtain ⟨-, -, h⟩ := Go.bind_eq_ok.mp h
  exact subLoop_noConst (f := fun w => w.substMap sm) _
    (fun ve hve s' hs' => (var_substMap_noConst (hm.ok _ (List.of_mem_zip hve).1) hs hs').1)
    (acc := .k m.coeff) trivial (fun _ h => (by cases h)) (fun _ h => (by cases h)) h

/-- `SubstituteAccordingTo` with values that are not constant monomials. -/
theorem substMap_noConst {e r : Scalar R} {sm : SubMap R} (he : e.Canon)
    (hs : ∀ kv ∈ sm, kv.2.Canon ∧ kv.2.NoConst) (h : e.substMap sm = .ok r) :
    r.NoConst ∧ ((∀ p, r = .poly p → r.asSimplified = .ok r) ∨ ∃ kv ∈ sm, r = kv.2) := by
  cases e with
  | k c =>
    simp only [Scalar.substMap, Go.pure_eq, Except.ok.injEq] at h
    exact h ▸ ⟨fun _ h => (by cases h), Or.inl fun _ h => (by cases h)⟩
  | var w =>
    obtain ⟨⟨-, h1⟩, h2⟩ := var_substMap_noConst (w := w) he hs h
    refine ⟨h1, ?_⟩
    rcases h2 with rfl | h2
    · exact Or.inl fun _ h => (by cases h)
    · exact Or.inr h2
  | mono m =>
    obtain ⟨-, h1, h2⟩ := mono_substMap_noConst (m := m) he hs h
    exact ⟨h1, Or.inl h2⟩
  | poly p =>
    have hp : p.Canon := he
    change p.substMap sm = .ok r at h
    unfold Poly.substMap at h
    obtain ⟨-, -, h⟩ := Go.bind_eq_ok.mp h
    obtain ⟨-, -, h⟩ := Go.bind_eq_ok.mp h
    have hpost : ∀ l : List (Mono R), (∀ m ∈ l, m.Canon) → ∀ acc y : Scalar R,
        (acc.Canon ∧ acc.NoConst ∧ ∀ p, acc = .poly p → acc.asSimplified = .ok acc) →
        l.foldlM (fun acc m => do
          let t ← m.substMap sm
          acc.plus t) acc = .ok y →
        (y.Canon ∧ y.NoConst ∧ ∀ p, y = .poly p → y.asSimplified = .ok y) := by
      intro l hl
      induction l with
      | nil =>
        intro acc y ha h
        simp only [List.foldlM_nil, Go.pure_eq, Except.ok.injEq] at h
        exact h ▸ ha
      | cons m l ih =>
        intro acc y ha h
        rw [List.foldlM_cons] at h
        obtain ⟨z, h3, h4⟩ := Go.bind_eq_ok.mp h
        obtain ⟨t, h5, h6⟩ := Go.bind_eq_ok.mp h3
        obtain ⟨e2, -, -⟩ := mono_substMap_noConst (hl m (by simp)) hs h5
        obtain ⟨f1, f2⟩ := plus_noConst ha.1 e2 h6
        exact ih (fun m hm => hl m (by simp [hm])) z y
          ⟨Scalar.plus_canon ha.1 e2 z h6, f1, fun _ _ => f2⟩ h4
    obtain ⟨-, h1, h2⟩ := hpost p.monos hp.all (.k GoNum.zero) r
      ⟨trivial, fun _ h => (by cases h), fun _ h => (by cases h)⟩ h
    exact ⟨h1, Or.inl h2⟩

/-! ## Differentiation -/

theorem mono_derivative_noConst {m : Mono R} (hm : m.Canon) {v : Var R} {r : Scalar R}
    (h : m.derivative v = .ok r) : r.NoConst := by
  unfold Mono.derivative at h
  obtain ⟨-, -, h⟩ := Go.bind_eq_ok.mp h
  obtain ⟨-, -, h⟩ := Go.bind_eq_ok.mp h
  cases hf : findVar v m.vars with
  | none =>
    simp only [hf, Go.pure_eq, Except.ok.injEq] at h
    exact h ▸ fun _ h => (by cases h)
  | some i =>
    have hi := findVar_lt hf
    simp only [hf] at h
    rw [List.getElem?_eq_getElem (by rw [hm.len]; exact hi)] at h
    simp only at h
    split at h
    · simp only [Go.pure_eq, Except.ok.injEq] at h
      exact h ▸ fun _ h => (by cases h)
    · next h1 =>
      split at h
      · next h2 =>
        simp only [Go.pure_eq, Except.ok.injEq] at h
        subst h
        intro d hd
        rw [Scalar.mono.injEq] at hd
        subst hd
        intro h0
        have h3 := congrArg List.length h0
        simp only [List.length_eraseIdx, List.length_nil, hi, if_true] at h3
        exact h1 ⟨h2, by omega⟩
      · simp only [Go.pure_eq, Except.ok.injEq] at h
        subst h
        intro d hd
        rw [Scalar.mono.injEq] at hd
        subst hd
        intro h0
        rw [show m.vars = [] from h0] at hi
        simp at hi

/-- One step of the derivative of a polynomial adds at most one term, of one degree less in `v`. -/
theorem derivStep_degs {m : Mono R} (hm : m.Canon) {v : Var R} (hv : v.OK) (acc : List (Mono R)) :
    ∃ o, derivStep v acc m = .ok (acc ++ o) ∧
      (o = [] ∨ ∃ d, o = [d] ∧ d.degs + Finsupp.single v.id 1 = m.degs) := by
  unfold derivStep
  by_cases hc : m.isConstant = true
  · rw [if_pos hc]
    exact ⟨[], by simp [Go.pure_eq], Or.inl rfl⟩
  · rw [if_neg hc]
    obtain ⟨r, h1, h2⟩ := Mono.derivative_ok hm hv
    rw [h1, Go.ok_bind]
    cases h2 with
    | absent h =>
      refine ⟨[], ?_, Or.inl rfl⟩
      simp only
      rw [if_pos (by simp)]
      simp [Go.pure_eq]
    | linear w hw he hwv =>
      simp only
      split
      · exact ⟨[], by simp [Go.pure_eq], Or.inl rfl⟩
      · refine ⟨[kToMono m.coeff], rfl, Or.inr ⟨_, rfl, ?_⟩⟩
        have h1 : m.degs = Finsupp.single v.id 1 :=
          (hm.degs_eq_single v.id).mpr ⟨he, by simp [hw, hwv]⟩
        rw [h1]
        simp [Mono.degs, kToMono]
    | erase d hd hdv hdc hdeg h1 => exact ⟨[d], rfl, Or.inr ⟨d, rfl, hdeg⟩⟩
    | dec d e hd hdv hdc hdeg he h2 => exact ⟨[d], rfl, Or.inr ⟨d, rfl, hdeg⟩⟩

theorem derivFold_degs {v : Var R} (hv : v.OK) (l : List (Mono R)) (hl : ∀ m ∈ l, m.Canon)
    (acc : List (Mono R)) :
    ∃ out, l.foldlM (derivStep v) acc = .ok (acc ++ out) ∧
      (∀ d ∈ out, ∃ m ∈ l, d.degs + Finsupp.single v.id 1 = m.degs) ∧
      ((l.map Mono.degs).Nodup → (out.map Mono.degs).Nodup) := by
  induction l generalizing acc with
  | nil => exact ⟨[], by simp [Go.pure_eq], by simp, by simp⟩
  | cons m l ih =>
    obtain ⟨o, h1, h2⟩ := derivStep_degs (hl m (by simp)) hv acc
    obtain ⟨out, h3, h4, h5⟩ := ih (fun m hm => hl m (by simp [hm])) (acc ++ o)
    refine ⟨o ++ out, ?_, ?_, ?_⟩
    · rw [List.foldlM_cons, h1, Go.ok_bind, h3, List.append_assoc]
    · intro d hd
      rcases List.mem_append.mp hd with hd | hd
      · rcases h2 with rfl | ⟨d', rfl, h2⟩
        · simp at hd
        · rw [List.mem_singleton] at hd
          exact ⟨m, by simp, hd ▸ h2⟩
      · obtain ⟨m', h6, h7⟩ := h4 d hd
        exact ⟨m', by simp [h6], h7⟩
    · intro hn
      rw [List.map_cons, List.nodup_cons] at hn
      rcases h2 with rfl | ⟨d', rfl, h2⟩
      · exact h5 hn.2
      · rw [List.singleton_append, List.map_cons, List.nodup_cons]
        refine ⟨fun hd => ?_, h5 hn.2⟩
        obtain ⟨d, h6, h7⟩ := List.mem_map.mp hd
        obtain ⟨m', h8, h9⟩ := h4 d h6
        apply hn.1
        rw [← h2, ← h7, h9]
        exact List.mem_map_of_mem h8

/-- `DerivativeWrt`: the terms have one degree less in the variable; a polynomial that writes every
term once gives such a polynomial. -/
theorem derivative_neat {D E : Set (ℕ →₀ ℕ)} {e r : Scalar R} (he : e.Canon) (te : e.TermsIn D)
    {v : Var R} (hv : v.OK)
    (hDE : ∀ d, d + Finsupp.single v.id 1 ∈ D → d ∈ E) (h : e.derivative v = .ok r) :
    r.TermsIn E ∧ r.NoConst ∧ (e.Distinct → r.Distinct) := by
  have nz : ∀ {m : Mono R} {d : ℕ →₀ ℕ}, m.vars = [] → d + Finsupp.single v.id 1 ≠ m.degs := by
    intro m d hv hd
    have h1 : m.degs = 0 := by
      unfold Mono.degs
      rw [hv]
      simp
    have := DFunLike.congr_fun (hd.trans h1) v.id
    simp at this
  cases e with
  | k c =>
    simp only [Scalar.derivative, Go.pure_eq, Except.ok.injEq] at h
    exact h ▸ ⟨trivial, fun _ h => (by cases h), fun _ => trivial⟩
  | var w =>
    simp only [Scalar.derivative] at h
    obtain ⟨-, -, h⟩ := Go.bind_eq_ok.mp h
    obtain ⟨-, -, h⟩ := Go.bind_eq_ok.mp h
    split at h
    all_goals
      simp only [Go.pure_eq, Except.ok.injEq] at h
      exact h ▸ ⟨trivial, fun _ h => (by cases h), fun _ => trivial⟩
  | mono m =>
    have hm : m.Canon := he
    have hn := mono_derivative_noConst hm h
    obtain ⟨r', h1, h2⟩ := Mono.derivative_ok hm hv
    change m.derivative v = .ok r at h
    rw [h, Except.ok.injEq] at h1
    subst h1
    have key : ∀ d : Mono R, d.degs + Finsupp.single v.id 1 = m.degs → d.degs ∈ E := by
      intro d hd
      rcases te with hv0 | hmD
      · exact absurd hd (nz hv0)
      · exact hDE _ (hd ▸ hmD)
    cases h2 with
    | absent _ => exact ⟨trivial, hn, fun _ => trivial⟩
    | linear _ _ _ _ => exact ⟨trivial, hn, fun _ => trivial⟩
    | erase d hd hdv hdc hdeg h1 => exact ⟨Or.inr (key d hdeg), hn, fun _ => trivial⟩
    | dec d e hd hdv hdc hdeg he h2 => exact ⟨Or.inr (key d hdeg), hn, fun _ => trivial⟩
  | poly p =>
    have hp : p.Canon := he
    change p.derivative v = .ok r at h
    unfold Poly.derivative at h
    obtain ⟨-, -, h⟩ := Go.bind_eq_ok.mp h
    obtain ⟨-, -, h⟩ := Go.bind_eq_ok.mp h
    obtain ⟨out, h1, h2, h3⟩ := derivFold_degs hv p.monos hp.all []
    rw [h1, Go.ok_bind, List.nil_append] at h
    split at h
    · simp only [Go.pure_eq, Except.ok.injEq] at h
      exact h ▸ ⟨trivial, fun _ h => (by cases h), fun _ => trivial⟩
    · simp only [Go.pure_eq, Except.ok.injEq] at h
      subst h
      refine ⟨fun d hd => Or.inr ?_, fun _ h => (by cases h), fun ne => h3 ne⟩
      obtain ⟨m, hm, hdeg⟩ := h2 d hd
      rcases te m hm with hv0 | hmD
      · exact absurd hdeg (nz hv0)
      · exact hDE _ (hdeg ▸ hmD)

omit [Field R] [LinearOrder R] in
/-- `SubstituteAccordingTo` names no variable that is not in the expression or a value of the map. -/
theorem substMap_mentions [GoNum R] {e r : Scalar R} {sm : SubMap R} (he : e.Canon)
    (hsm : ∀ kv ∈ sm, kv.1.OK ∧ kv.2.Canon) (hr : e.substMap sm = .ok r) :
    ∀ w, r.Mentions w → e.Mentions w ∨ ∃ kv ∈ sm, kv.2.Mentions w := by
  set P : Var R → Prop := fun w => e.Mentions w ∨ ∃ kv ∈ sm, kv.2.Mentions w with hP
  suffices h : Go.Ok (e.substMap sm) (Good P Set.univ) by
    obtain ⟨r', h1, h2⟩ := h
    rw [hr, Except.ok.injEq] at h1
    subst h1
    rw [good_iff] at h2
    exact h2.2.2
  have hvar : ∀ w : Var R, w.OK → e.Mentions w → Go.Ok (w.substMap sm) (Good P Set.univ) := by
    intro w hw hm
    rw [var_substMap_eq hw hsm]
    refine ⟨_, rfl, ?_⟩
    cases h : sm.lookup w with
    | none => exact ⟨hw, .inl hm, trivial⟩
    | some s =>
      obtain ⟨k, hk⟩ := lookup_mem h
      exact good_mentions (hsm _ hk).2 s.termsIn_univ (fun v hv => .inr ⟨_, hk, hv⟩)
  have hmono : ∀ m : Mono R, m.Canon → (∀ w ∈ m.vars, e.Mentions w) →
      Go.Ok (m.substMap sm) (Good P Set.univ) := by
    intro m hm hme
    rw [mono_substMap_eq hm hsm]
    exact subFold_good hm (fun w hw => hvar w (hm.ok w hw) (hme w hw)) _
  cases e with
  | k c => exact ⟨_, rfl, trivial⟩
  | var w => exact hvar w he rfl
  | mono m => exact hmono m he (fun w hw => hw)
  | poly p =>
    have hp : p.Canon := he
    show Go.Ok (p.substMap sm) _
    unfold Poly.substMap
    rw [show p.check = .ok () from Good.check (s := .poly p) (good_of_univ (s := .poly p) hp),
      checkSubMap_ok hsm, Go.ok_bind, Go.ok_bind]
    exact sumFold_good (fun m hm => hmono m (hp.all m hm) (fun w hw => ⟨m, hm, hw⟩))

end Verif
