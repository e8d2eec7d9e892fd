import Mathlib.Algebra.MvPolynomial.Funext
import Mathlib.Algebra.CharZero.Infinite
import Verif.Props.ConstrNeg

/-!
# C38, C39: implication and non-negativity of scalar constraints
-/

set_option linter.unusedSectionVars false

namespace Verif

open MvPolynomial

variable {R : Type} [Field R] [LinearOrder R] [IsStrictOrderedRing R]

/-! ## Variables of a simplified constraint -/

theorem addKey_fold_nodup (l acc : List (Var R)) (h : (acc ++ l).Nodup) :
    l.foldl addKey acc = acc ++ l := by
  induction l generalizing acc with
  | nil => simp
  | cons v l ih =>
    rw [List.foldl_cons]
    have hv : v ∉ acc := by
      intro hm
      have := List.nodup_append.mp h
      exact this.2.2 v hm v (by simp) rfl
    have : addKey acc v = acc ++ [v] := by
      unfold addKey
      rw [if_neg]
      intro hc
      obtain ⟨w, hw, hk⟩ := List.any_eq_true.mp hc
      exact hv (keyEq_iff.mp hk ▸ hw)
    rw [this, ih _ (by simpa using h)]
    simp

/-- With a constant on the right, the variables of a constraint are those of its left side. -/
theorem con_variables {c : SCon R} (hc : c.Canon) {k : R} (hk : c.rhs = .k k) :
    Con.variables (.s c) = .ok c.lhs.variables := by
  have hn : c.lhs.variables.Nodup := List.Nodup.of_map _ (variables_nodup hc.lhs).1
  unfold Con.variables
  rw [show Con.check (.s c) = .ok () from hc.check, Go.ok_bind]
  show Except.ok ((c.lhs.variables ++ c.rhs.variables).foldl addKey []) = _
  rw [hk, show (Scalar.k k).variables = [] from rfl, List.append_nil,
    addKey_fold_nodup _ _ (by simpa using hn), List.nil_append]

/-- `Simplify` keeps the left side free of repeated low terms. -/
theorem simplify_con_low {c c' : SCon R} (hc : c.Canon) (hd : c.lhs.LowDistinct)
    (h : c.simplify = .ok c') : c'.lhs.LowDistinct := by
  have main : ∀ r, c.rhs = r → (do
      let d ← c.lhs.minus r
      let l ← d.plusF64 (← r.constant)
      return (⟨l, .k (← r.constant), c.sense⟩ : SCon R)) = .ok c' → c'.lhs.LowDistinct := by
    rintro r rfl h
    obtain ⟨d, h1, h2⟩ := Scalar.minus_good (good_of_univ hc.lhs) (good_of_univ hc.rhs)
    rw [good_iff] at h2
    obtain ⟨k, hk⟩ := constant_total hc.rhs
    rw [h1, Go.ok_bind, hk, Go.ok_bind, Go.bind_eq_ok] at h
    obtain ⟨l, h3, h4⟩ := h
    simp only [Go.ok_bind, Go.pure_eq, Except.ok.injEq] at h4
    subst h4
    exact (Scalar.plusF64_simple h2.1 h3).1
  unfold SCon.simplify at h
  cases hr : c.rhs with
  | k r =>
    rw [hr] at h
    have : c = c' := by simpa [Go.pure_eq] using h
    exact this ▸ hd
  | var v | mono m | poly p => rw [hr] at h; exact main _ hr h

/-- The conditions under which `Simplify` isolates the constant: linear, no low term written twice, no
constant on the left. -/
structure SCon.Plain (c : SCon R) : Prop where
  canon : c.Canon
  low : c.LowDistinct
  lin : c.TermsIn (degLE 1)
  zero : coeff 0 c.lhs.den = 0

/-- A plain constraint in one variable after `Simplify` and `ScaleBy`: `x sense bound`. -/
theorem plain_normal {c : SCon R} (hc : c.Plain) :
    ∃ c' k, c.simplify = .ok c' ∧ c'.Canon ∧ c'.TermsIn (degLE 1) ∧ c'.rhs = .k k ∧
      (∀ v, c'.Mentions v → c.Mentions v) ∧
      c'.lhs.den = c.lhs.den - c.rhs.den + C k ∧
      Con.variables (.s c') = .ok c'.lhs.variables ∧
      ∀ v, c'.lhs.variables = [v] → ∃ a, c'.lhs.linearCoeff [[v]] = .ok [a] ∧
        (∀ ρ, c'.lhs.value ρ = a * ρ v.id) ∧ (∀ ρ, c.Sat ρ ↔ c.sense.Holds (a * ρ v.id) k) ∧
        ∃ l', c'.scaleBy (1 / a) = .ok ⟨l', .k (k * (1 / a)), flipSense c.sense (1 / a)⟩ := by
  obtain ⟨c', k, h1, h2, h3, h4, h5, h6, h7, h8⟩ :=
    simplify_con_partial rearrFree_degLE_one hc.canon hc.lin
  obtain ⟨c'', e1, e2, e3⟩ :=
    simplify_con_constant_partial rearrFree_degLE_one hc.canon hc.lin hc.low.rhs
  rw [h1, Except.ok.injEq] at e1
  subst e1
  rw [hc.zero] at e3
  have hlow := simplify_con_low hc.canon hc.low.lhs h1
  refine ⟨c', k, h1, h2, h3, h5, h6, ?_, con_variables h2 h5, ?_⟩
  · rw [← h7, h5]; simp
  intro v hv
  obtain ⟨v1, v2, v3⟩ := variables_nodup h2.lhs
  rw [hv] at v2 v3
  have hmono : ∀ m, c'.lhs = .mono m → m.vars ≠ [] := by
    intro m hm e
    rw [hm] at hv
    simp [Scalar.variables, Mono.variables, e] at hv
  have hlin := linearCoeff_partial h2.lhs hlow hmono (ws := [v]) (by simp)
    (by intro w hw; exact mentions_ok h2.lhs (v2 w hw)) (by simp) v3
  have hval : ∀ ρ, c'.lhs.value ρ = coeff (Finsupp.single v.id 1) c'.lhs.den * ρ v.id := by
    intro ρ
    rw [Scalar.value_affine h2.lhs h3.lhs (ids := [v.id]) (by simp) (by simpa using v3), e3]
    simp
  refine ⟨_, hlin, hval, ?_, ?_⟩
  · intro ρ
    rw [← h8, SCon.Sat, hval, h4, h5]
    simp [Scalar.value]
  · obtain ⟨l', m1, -⟩ := Scalar.mulF64_good (good_of_univ h2.lhs)
      (1 / coeff (Finsupp.single v.id 1) c'.lhs.den)
    refine ⟨l', ?_⟩
    unfold SCon.scaleBy
    rw [h2.check, Go.ok_bind, m1, Go.ok_bind, h5, h4]
    rfl

/-- After division by the coefficient. -/
theorem holds_scaled (s : Sense) {a : R} (ha : a ≠ 0) (x k : R) :
    s.Holds (a * x) k ↔ (flipSense s (1 / a)).Holds x (k * (1 / a)) := by
  rw [← flipSense_holds s (one_div_ne_zero ha) (a * x) k]
  have : a * x * (1 / a) = x := by field_simp
  rw [this]

theorem flipSense_bad {s : Sense} {f : R} (h : s.OK) (n : ℕ) : flipSense s f ≠ .bad n := by
  rcases flipSense_ok h f with h | h | h <;> rw [h] <;> simp

/-- The comparison of the bounds decides the implication between two bounds on a number. -/
theorem boundsImply_exact {s t : Sense} (hs : s.OK) (ht : t.OK) (a b : R) :
    ∃ r, boundsImply s t a b = .ok r ∧ (r = true ↔ ∀ x, s.Holds x a → t.Holds x b) := by
  have e1 : (2 : R) ≠ 0 := two_ne_zero
  rcases hs with rfl | rfl | rfl <;> rcases ht with rfl | rfl | rfl
  · exact ⟨decide (a = b), rfl, by simp [Sense.Holds]⟩
  · exact ⟨decide (a ≤ b), rfl, by simp [Sense.Holds]⟩
  · exact ⟨decide (b ≤ a), rfl, by simp [Sense.Holds]⟩
  · refine ⟨false, rfl, ?_⟩
    simp only [Sense.Holds, Bool.false_eq_true, false_iff]
    intro h
    have h1 := h a le_rfl
    have h2 := h (a - 1) (by linarith)
    linarith
  · exact ⟨decide (a ≤ b), rfl, by
      simp only [Sense.Holds, decide_eq_true_eq]
      exact ⟨fun h x hx => hx.trans h, fun h => h a le_rfl⟩⟩
  · refine ⟨false, rfl, ?_⟩
    simp only [Sense.Holds, Bool.false_eq_true, false_iff]
    intro h
    have h2 := h (min a (b - 1)) (min_le_left _ _)
    have h3 := min_le_right a (b - 1)
    linarith
  · refine ⟨false, rfl, ?_⟩
    simp only [Sense.Holds, Bool.false_eq_true, false_iff]
    intro h
    have h1 := h a le_rfl
    have h2 := h (a + 1) (by linarith)
    linarith
  · refine ⟨false, rfl, ?_⟩
    simp only [Sense.Holds, Bool.false_eq_true, false_iff]
    intro h
    have h2 := h (max a (b + 1)) (le_max_left _ _)
    have h3 := le_max_right a (b + 1)
    linarith
  · exact ⟨decide (b ≤ a), rfl, by
      simp only [Sense.Holds, decide_eq_true_eq]
      exact ⟨fun h x hx => h.trans hx, fun h => h a le_rfl⟩⟩

/-- The difference of the sides is not constant. -/
def SCon.Nonconst (c : SCon R) : Prop := ∀ k, c.lhs.den - c.rhs.den ≠ C k

theorem coeff_ne_zero_of_nonconst {c c' : SCon R} {k a : R} {v : Var R} (hn : c.Nonconst)
    (hc' : c'.Canon) (ht : c'.TermsIn (degLE 1)) (hv : c'.lhs.variables = [v])
    (h : c'.lhs.den = c.lhs.den - c.rhs.den + C k)
    (hval : ∀ ρ, c'.lhs.value ρ = a * ρ v.id) : a ≠ 0 := by
  rintro rfl
  apply hn (-k)
  have : c'.lhs.den = 0 := by
    apply MvPolynomial.funext
    intro ρ
    have := hval ρ
    rw [zero_mul] at this
    simpa [Scalar.value] using this
  rw [this] at h
  rw [map_neg]
  exact eq_neg_of_add_eq_zero_left h.symm

/-- The scalar case in full: what `ImpliesThisIsAlsoSatisfied` returns for two plain, non-constant
constraints. -/
theorem impliesS_result {c o : SCon R} (hc : c.Plain) (ho : o.Plain) (nc : c.Nonconst)
    (no : o.Nonconst) :
    ∃ r, c.impliesS o = .ok r ∧
      (r = true → ∃ v w : Var R, v.id = w.id ∧ c.Mentions v ∧ o.Mentions w ∧
        ∃ (s t : Sense) (a b : R), (∀ ρ, c.Sat ρ ↔ s.Holds (ρ v.id) a) ∧
          (∀ ρ, o.Sat ρ ↔ t.Holds (ρ v.id) b) ∧ ∀ x, s.Holds x a → t.Holds x b) ∧
      (∀ v w : Var R, v.id = w.id → (∀ u, c.Mentions u → u = v) → (∀ u, o.Mentions u → u = w) →
        (∀ ρ, c.Sat ρ → o.Sat ρ) → r = true) := by
  obtain ⟨c', k, h1, h2, h3, h4, h5, h6, h7, h8⟩ := plain_normal hc
  obtain ⟨o', j, g1, g2, g3, g4, g5, g6, g7, g8⟩ := plain_normal ho
  unfold SCon.impliesS
  rw [hc.canon.check, Go.ok_bind, ho.canon.check, Go.ok_bind, h1, Go.ok_bind, g1, Go.ok_bind, h7,
    Go.ok_bind, g7, Go.ok_bind]
  have idsOf : ∀ v w : Var R, v.id = w.id ↔ (unionOfVariables [[v], [w]]).length = 1 := by
    intro v w
    obtain ⟨u1, u2, -⟩ := unionOfVariables_spec [[v], [w]]
    constructor
    · intro e
      have hl : ((unionOfVariables [[v], [w]]).map (·.id)).length = 1 := by
        have : ((unionOfVariables [[v], [w]]).map (·.id)).Perm [v.id] := by
          rw [List.perm_ext_iff_of_nodup u2 (by simp)]
          intro i
          rw [u1]
          simp [e, eq_comm]
        simpa using this.length_eq
      simpa using hl
    · intro e
      obtain ⟨u, hu⟩ := List.length_eq_one_iff.mp e
      rw [hu] at u1
      have a1 := (u1 v.id).mpr ⟨[v], by simp, by simp⟩
      have a2 := (u1 w.id).mpr ⟨[w], by simp, by simp⟩
      simp only [List.map_cons, List.map_nil, List.mem_singleton] at a1 a2
      rw [a1, a2]
  by_cases hcond : c'.lhs.variables.length = 1 ∧ o'.lhs.variables.length = 1 ∧
      (unionOfVariables [c'.lhs.variables, o'.lhs.variables]).length = 1
  · rw [if_pos hcond]
    obtain ⟨v, hv⟩ := List.length_eq_one_iff.mp hcond.1
    obtain ⟨w, hw⟩ := List.length_eq_one_iff.mp hcond.2.1
    have hvw : v.id = w.id := by
      rw [idsOf]
      rw [← hv, ← hw]
      exact hcond.2.2
    obtain ⟨a, a1, a2, a3, l', a4⟩ := h8 v hv
    obtain ⟨b, b1, b2, b3, m', b4⟩ := g8 w hw
    have ha := coeff_ne_zero_of_nonconst nc h2 h3 hv h6 a2
    have hb := coeff_ne_zero_of_nonconst no g2 g3 hw g6 b2
    have e0 : ∀ x : R, goGet [x] 0 = .ok x := fun _ => rfl
    rw [hv, hw, a1, Go.ok_bind, e0, Go.ok_bind, b1, Go.ok_bind, e0, Go.ok_bind]
    have a4' : c'.scaleBy (GoNum.div GoNum.one a) = .ok _ := a4
    have b4' : o'.scaleBy (GoNum.div GoNum.one b) = .ok _ := b4
    rw [a4', Go.ok_bind, b4', Go.ok_bind]
    obtain ⟨r, r1, r2⟩ := boundsImply_exact (flipSense_ok hc.canon.sense (1 / a))
      (flipSense_ok ho.canon.sense (1 / b)) (k * (1 / a)) (j * (1 / b))
    have satc : ∀ ρ, c.Sat ρ ↔ (flipSense c.sense (1 / a)).Holds (ρ v.id) (k * (1 / a)) :=
      fun ρ => (a3 ρ).trans (holds_scaled _ ha _ _)
    have sato : ∀ ρ, o.Sat ρ ↔ (flipSense o.sense (1 / b)).Holds (ρ v.id) (j * (1 / b)) := by
      intro ρ
      rw [hvw]
      exact (b3 ρ).trans (holds_scaled _ hb _ _)
    refine ⟨r, ?_, ?_, ?_⟩
    · simp only [Scalar.constant, Go.pure_eq, Go.ok_bind]
      exact r1
    · intro hr
      have mv : c'.lhs.Mentions v := (variables_nodup h2.lhs).2.1 v (by rw [hv]; simp)
      have mw : o'.lhs.Mentions w := (variables_nodup g2.lhs).2.1 w (by rw [hw]; simp)
      exact ⟨v, w, hvw, h5 v (Or.inl mv), g5 w (Or.inl mw), _, _, _, _, satc, sato, r2.mp hr⟩
    · intro v' w' _ _ _ himp
      rw [r2]
      intro x hx
      have := himp (fun _ => x) ((satc _).mpr hx)
      exact (sato _).mp this
  · rw [if_neg hcond]
    refine ⟨false, rfl, by simp, ?_⟩
    intro v w hvw hcv how himp
    exfalso
    -- both sides mention only one variable and are not constant
    have one : ∀ {p p' : SCon R} {i : R} {u : Var R}, p.Nonconst → p'.Canon →
        p'.lhs.den = p.lhs.den - p.rhs.den + C i → (∀ x, p'.Mentions x → p.Mentions x) →
        (∀ x, p.Mentions x → x = u) → p'.lhs.variables = [u] := by
      intro p p' i u np cp dp mp hu
      have hn : p'.lhs.variables.Nodup := List.Nodup.of_map _ (variables_nodup cp.lhs).1
      have hall : ∀ x ∈ p'.lhs.variables, x = u := fun x hx =>
        hu x (mp x (Or.inl ((variables_nodup cp.lhs).2.1 x hx)))
      cases hl : p'.lhs.variables with
      | nil =>
        exfalso
        have hvars : p'.lhs.den.vars = ∅ := by
          rw [Finset.eq_empty_iff_forall_notMem]
          intro x hx
          have := variables_complete cp.lhs hx
          rw [hl] at this
          simp at this
        obtain ⟨q, hq⟩ : ∃ q, p'.lhs.den = C q :=
          ⟨_, MvPolynomial.vars_eq_empty_iff_eq_C.mp hvars⟩
        apply np (q - i)
        rw [map_sub, ← hq, dp]
        ring
      | cons x l =>
        rw [hl] at hall hn
        have hx := hall x (by simp)
        cases l with
        | nil => rw [hx]
        | cons y l =>
          have hy := hall y (by simp)
          rw [hx, hy] at hn
          simp at hn
    have hv := one nc h2 h6 h5 hcv
    have hw := one no g2 g6 g5 how
    apply hcond
    rw [hv, hw]
    exact ⟨rfl, rfl, (idsOf v w).mp hvw⟩

/-- C38: if `c.ImpliesThisIsAlsoSatisfied(o)` is true then every assignment satisfying `c` satisfies
`o`.  Missing: a constant on a left side (`implies_constant_false`), terms of higher degree
(`implies_nonlinear_false`), low terms written twice, and sides whose difference is constant (division
by zero). -/
theorem implies_sound_partial {c o : SCon R} (hc : c.Plain) (ho : o.Plain) (nc : c.Nonconst)
    (no : o.Nonconst) (h : c.implies (.s o) = .ok true) (ρ : ℕ → R) (hs : c.Sat ρ) : o.Sat ρ := by
  obtain ⟨r, h1, h2, -⟩ := impliesS_result hc ho nc no
  have h' : c.impliesS o = .ok true := h
  rw [h', Except.ok.injEq] at h1
  obtain ⟨v, w, hvw, -, -, s, t, a, b, e1, e2, e3⟩ := h2 h1.symm
  exact (e2 ρ).mpr (e3 _ ((e1 ρ).mp hs))

/-- C38, converse for one variable: between plain constraints on the same variable the answer is
exact. -/
theorem implies_exact_partial {c o : SCon R} (hc : c.Plain) (ho : o.Plain) (nc : c.Nonconst)
    (no : o.Nonconst) {v w : Var R} (hvw : v.id = w.id) (hcv : ∀ u, c.Mentions u → u = v)
    (how : ∀ u, o.Mentions u → u = w) :
    ∃ r, c.implies (.s o) = .ok r ∧ (r = true ↔ ∀ ρ, c.Sat ρ → o.Sat ρ) := by
  obtain ⟨r, h1, -, h3⟩ := impliesS_result hc ho nc no
  refine ⟨r, h1, fun hr ρ => ?_, h3 v w hvw hcv how⟩
  subst hr
  exact implies_sound_partial hc ho nc no h1 ρ

/-- C38: a scalar constraint never claims to imply a vector or matrix constraint, so these answers are
sound. -/
theorem implies_array_sound {D : Set (ℕ →₀ ℕ)} (hD : RearrFree D) {c : SCon R} (hc : c.Canon)
    (ht : c.TermsIn D) {o : Con R} (hv : ∀ s, o ≠ .s s) (ho : o.check = .ok ()) :
    c.implies o = .ok false := by
  obtain ⟨c', k, h1, -⟩ := simplify_con_partial hD hc ht
  cases o with
  | s s => exact absurd rfl (hv s)
  | v o | m o =>
    show (do c.check; Con.check _; let _ ← c.simplify; return false : Go Bool) = _
    rw [hc.check, Go.ok_bind, ho, Go.ok_bind, h1]
    rfl

/-! ## C39 -/

theorem degree_one_of_mentions {e : Scalar R} (he : e.Canon) (ht : e.TermsIn (degLE 1)) {v : Var R}
    (hv : e.Mentions v) : e.degree = .ok 1 := by
  obtain ⟨d, h1, h2⟩ := Scalar.degree_le_iff he (n := 1)
  obtain ⟨d', h1', h3⟩ := Scalar.degree_le_iff he (n := 0)
  rw [h1, Except.ok.injEq] at h1'
  subst h1'
  have hle := h2.mpr ht
  have hn : ¬ e.TermsIn (degLE 0) := by
    have key : ∀ m : Mono R, m.Canon → v ∈ m.vars → ¬ (m.vars = [] ∨ m.degs ∈ degLE 0) := by
      rintro m hm hvm (h | h)
      · rw [h] at hvm; simp at hvm
      · have h0 : m.degs = 0 := by
          ext i
          have : (m.degs.sum fun _ e => e) = 0 := Nat.le_zero.mp h
          by_contra hne
          have := (Finset.sum_eq_zero_iff.mp this) i (Finsupp.mem_support_iff.mpr hne)
          exact hne this
        rw [hm.degs_eq_zero] at h0
        rw [h0] at hvm
        simp at hvm
    cases e with
    | k c => exact hv.elim
    | var w =>
      intro h
      have : ((Finsupp.single w.id 1 : ℕ →₀ ℕ).sum fun _ e => e) ≤ 0 := h
      rw [Finsupp.sum_single_index rfl] at this
      omega
    | mono m => exact key m he hv
    | poly p =>
      obtain ⟨m, hm, hv⟩ := hv
      exact fun h => key m (Poly.Canon.all he m hm) hv (h m hm)
  rw [← h3] at hn
  rw [h1, Except.ok.injEq]
  push_cast at *
  omega

/-- Soundness, if `Simplify` keeps the solutions and leaves no constant on the left. -/
theorem isNonneg_of_simplify {c c' : SCon R} {k : R} (hc : c.Canon) (hd : c.LowDistinct) (h1 : c.simplify = .ok c')
    (h2 : c'.Canon) (h5 : c'.rhs = .k k) (h6 : ∀ v, c'.Mentions v → c.Mentions v) (h8 : ∀ ρ, c'.Sat ρ ↔ c.Sat ρ)
    (e3 : coeff 0 c'.lhs.den = 0) (h : c.isNonneg = .ok true) :
    ∃ v, c.Mentions v ∧ ∀ ρ, c.Sat ρ ↔ 0 ≤ ρ v.id := by
  unfold SCon.isNonneg at h
  rw [hc.check, Go.ok_bind, h1, Go.ok_bind, con_variables h2 h5, Go.ok_bind] at h
  by_cases hl : c'.lhs.variables.length = 1
  swap
  · rw [if_pos hl] at h
    simp [Go.pure_eq] at h
  obtain ⟨v, hv⟩ := List.length_eq_one_iff.mp hl
  rw [if_neg (by simpa using hl)] at h
  obtain ⟨d, d1, d2⟩ := Scalar.degree_le_iff h2.lhs (n := 1)
  simp only [Go.pure_eq, d1, Go.ok_bind] at h
  by_cases hdeg : d = 1
  swap
  · rw [if_pos hdeg] at h
    simp at h
  rw [if_neg (by simpa using hdeg)] at h
  have hlin : c'.lhs.TermsIn (degLE 1) := d2.mp (by omega)
  rw [h5] at h
  simp only at h
  by_cases hk : k = 0
  swap
  · rw [if_pos (by simpa using hk)] at h
    simp at h
  rw [if_neg (by simpa using hk)] at h
  obtain ⟨v1, v2, v3⟩ := variables_nodup h2.lhs
  rw [hv] at v2 v3
  have hmono : ∀ m, c'.lhs = .mono m → m.vars ≠ [] := by
    intro m hm e
    rw [hm] at hv
    simp [Scalar.variables, Mono.variables, e] at hv
  have hco := linearCoeff_partial h2.lhs (simplify_con_low hc hd.lhs h1) hmono (ws := [v]) (by simp)
    (by intro w hw; exact mentions_ok h2.lhs (v2 w hw)) (by simp) v3
  have hval : ∀ ρ, c'.lhs.value ρ = coeff (Finsupp.single v.id 1) c'.lhs.den * ρ v.id := by
    intro ρ
    rw [Scalar.value_affine h2.lhs hlin (ids := [v.id]) (by simp) (by simpa using v3), e3]
    simp
  rw [linearCoeff_default, hv, hco] at h
  simp only [List.map_cons, List.map_nil] at h
  generalize coeff (Finsupp.single v.id 1) c'.lhs.den = a at hval h
  refine ⟨v, h6 v (Or.inl (v2 v (by simp))), fun ρ => ?_⟩
  have h' : ((decide (0 < a) && decide (c'.sense = .ge)) ||
      (decide (a < 0) && decide (c'.sense = .le))) = true := by
    simpa [Go.ok_bind, goGet, Go.pure_eq, exactNum] using h
  rw [← h8 ρ, SCon.Sat, hval, h5, hk]
  simp only [Scalar.value, Scalar.den_k, map_zero]
  rw [Bool.or_eq_true, Bool.and_eq_true, Bool.and_eq_true, decide_eq_true_eq, decide_eq_true_eq,
    decide_eq_true_eq, decide_eq_true_eq] at h'
  rcases h' with ⟨ha, hs⟩ | ⟨ha, hs⟩
  · rw [hs]
    exact mul_nonneg_iff_of_pos_left ha
  · rw [hs]
    show a * ρ v.id ≤ 0 ↔ 0 ≤ ρ v.id
    constructor
    · intro hx
      by_contra hneg
      have := mul_pos_of_neg_of_neg ha (not_le.mp hneg)
      linarith
    · intro hx
      exact mul_nonpos_of_nonpos_of_nonneg ha.le hx

/-- C39, soundness: if `IsNonnegativityConstraint` is true then the solution set is `{x >= 0}` for one
variable `x`.  Missing: a constant on the left side (`isNonneg_false`), and terms that are
rearrangements of each other. -/
theorem isNonneg_sound_partial {D : Set (ℕ →₀ ℕ)} (hD : RearrFree D) {c : SCon R} (hc : c.Canon)
    (ht : c.TermsIn D) (hd : c.LowDistinct) (h0 : coeff 0 c.lhs.den = 0)
    (h : c.isNonneg = .ok true) :
    ∃ v, c.Mentions v ∧ ∀ ρ, c.Sat ρ ↔ 0 ≤ ρ v.id := by
  obtain ⟨c', k, h1, h2, h3, h4, h5, h6, h7, h8⟩ := simplify_con_partial hD hc ht
  obtain ⟨-, e3⟩ := simplify_con_constant_of hc hd.rhs h1 h5 h7
  exact isNonneg_of_simplify hc hd h1 h2 h5 h6 h8 (e3.trans h0) h

/-- C39, completeness: a plain constraint that mentions one variable and whose solution set is
`{x >= 0}` is recognised. -/
theorem isNonneg_complete_partial {c : SCon R} (hc : c.Plain) {v : Var R}
    (hv : ∀ u, c.Mentions u → u = v) (hsol : ∀ ρ, c.Sat ρ ↔ 0 ≤ ρ v.id) :
    c.isNonneg = .ok true := by
  obtain ⟨c', k, h1, h2, h3, h4, h5, h6, h7, h8⟩ := plain_normal hc
  have hn : c'.lhs.variables.Nodup := List.Nodup.of_map _ (variables_nodup h2.lhs).1
  have hall : ∀ x ∈ c'.lhs.variables, x = v := fun x hx =>
    hv x (h5 x (Or.inl ((variables_nodup h2.lhs).2.1 x hx)))
  have hvars : c'.lhs.variables = [v] := by
    cases hl : c'.lhs.variables with
    | nil =>
      exfalso
      have hval : ∀ ρ σ : ℕ → R, c'.lhs.value ρ = c'.lhs.value σ := fun ρ σ =>
        variables_determine_value h2.lhs (by rw [hl]; simp)
      have hsat : ∀ ρ σ : ℕ → R, c.Sat ρ → c.Sat σ := by
        intro ρ σ hs
        obtain ⟨c1, k1, e1, -, -, e4, e5, -, -, e8⟩ :=
          simplify_con_partial rearrFree_degLE_one hc.canon hc.lin
        rw [h1, Except.ok.injEq] at e1
        subst e1
        rw [← e8] at hs ⊢
        unfold SCon.Sat at hs ⊢
        rw [e5] at hs ⊢
        rw [hval σ ρ]
        simpa [Scalar.value] using hs
      have p1 : c.Sat (fun _ => (1 : R)) := (hsol _).mpr zero_le_one
      have p2 := (hsol _).mp (hsat _ (fun _ => (-1 : R)) p1)
      linarith
    | cons x l =>
      rw [hl] at hall hn
      have hx := hall x (by simp)
      cases l with
      | nil => rw [hx]
      | cons y l =>
        have hy := hall y (by simp)
        rw [hx, hy] at hn
        simp at hn
  obtain ⟨a, a1, a2, a3, -⟩ := h8 v hvars
  have hs : c'.sense = c.sense := by
    obtain ⟨c1, k1, e1, -, -, e4, -⟩ := simplify_con_partial rearrFree_degLE_one hc.canon hc.lin
    rw [h1, Except.ok.injEq] at e1
    exact e1 ▸ e4
  have sol : ∀ x : R, c.sense.Holds (a * x) k ↔ 0 ≤ x := fun x =>
    (a3 (fun _ => x)).symm.trans (hsol (fun _ => x))
  have fin : k = 0 ∧ ((0 < a ∧ c.sense = .ge) ∨ (a < 0 ∧ c.sense = .le)) := by
    have s0 := sol 0
    have s1 := sol 1
    have sm := sol (-1)
    have hm : ¬ (0 : R) ≤ -1 := by linarith [zero_lt_one (α := R)]
    rcases hc.canon.sense with h | h | h <;> rw [h] at s0 s1 sm sol ⊢ <;>
      simp only [Sense.Holds, mul_zero, mul_one, le_refl, iff_true, zero_le_one, hm, iff_false] at s0 s1 sm sol
    · exfalso
      have : a = 0 := by rw [s1, ← s0]
      apply sm
      rw [this, zero_mul]
      exact s0
    · -- a*x <= k iff 0 <= x
      have ha : a < 0 := by
        by_contra hge
        push Not at hge
        apply sm
        linarith
      refine ⟨?_, Or.inr ⟨ha, rfl⟩⟩
      by_contra hk
      have hkpos : 0 < k := lt_of_le_of_ne s0 (Ne.symm hk)
      have hx := (sol (k / a)).mp (by rw [mul_div_cancel₀ _ ha.ne])
      have := div_neg_of_pos_of_neg hkpos ha
      linarith
    · have ha : 0 < a := by
        by_contra hge
        push Not at hge
        apply sm
        linarith
      refine ⟨?_, Or.inl ⟨ha, rfl⟩⟩
      by_contra hk
      have hkneg : k < 0 := lt_of_le_of_ne s0 hk
      have hx := (sol (k / a)).mp (by rw [mul_div_cancel₀ _ ha.ne'])
      have := div_neg_of_neg_of_pos hkneg ha
      linarith
  obtain ⟨hk, hsgn⟩ := fin
  have hdeg := degree_one_of_mentions h2.lhs h3.lhs
    ((variables_nodup h2.lhs).2.1 v (by rw [hvars]; simp))
  unfold SCon.isNonneg
  rw [hc.canon.check, Go.ok_bind, h1, Go.ok_bind, h7, Go.ok_bind, hvars, if_neg (by simp), h4]
  simp only [Go.pure_eq, hdeg, Go.ok_bind]
  rw [if_neg (by simp), if_neg (by simpa using hk), linearCoeff_default, hvars, a1]
  simp only [Go.ok_bind]
  have : goGet [a] 0 = .ok a := rfl
  rw [this, Go.ok_bind, hs]
  rcases hsgn with ⟨h, h'⟩ | ⟨h, h'⟩
  · rw [h']
    simp [h]
  · rw [h']
    simp [h]

/-! ## Counterexamples and concrete cases -/

/-- C38 is false with a constant on the left: `x - 5 <= 0` is said to imply `x <= 1`. -/
theorem implies_constant_false :
    ¬ ∀ c o : SCon ℚ, c.Canon → o.Canon → c.TermsIn (degLE 1) → o.TermsIn (degLE 1) →
      c.implies (.s o) = .ok true → ∀ ρ, c.Sat ρ → o.Sat ρ := by
  intro h
  have h1 := SCon.okDeg_spec (n := 1) (c := ⟨.poly ⟨[wm1 1 0 1, wm0 (-5)]⟩, .k 0, .le⟩)
    (by decide +kernel)
  have h2 := SCon.okDeg_spec (n := 1) (c := ⟨.var wx, .k 1, .le⟩) (by decide +kernel)
  have := h _ _ h1.1 h2.1 h1.2 h2.2 (by decide +kernel) (fun _ => 5)
  exact absurd this (by decide +kernel)

/-- C38 is false for terms of higher degree: `x - x^2 <= 0` is said to imply `x <= 0`. -/
theorem implies_nonlinear_false :
    ¬ ∀ c o : SCon ℚ, c.Canon → o.Canon → coeff 0 c.lhs.den = 0 → coeff 0 o.lhs.den = 0 →
      c.implies (.s o) = .ok true → ∀ ρ, c.Sat ρ → o.Sat ρ := by
  intro h
  have h1 := SCon.okDeg_spec (n := 2) (c := ⟨.poly ⟨[wm1 1 0 1, wm1 (-1) 0 2]⟩, .k 0, .le⟩)
    (by decide +kernel)
  have h2 := SCon.okDeg_spec (n := 1) (c := ⟨.var wx, .k 0, .le⟩) (by decide +kernel)
  have := h _ _ h1.1 h2.1 (by simp [Mono.den, coeff_monomial, wm1, Mono.degs])
    (by simp [coeff_X]) (by decide +kernel) (fun _ => 2)
  exact absurd this (by decide +kernel)

/-- C39 is false with a constant on the left: `x - 5 >= 0` is called a non-negativity constraint. -/
theorem isNonneg_false :
    ¬ ∀ c : SCon ℚ, c.Canon → c.TermsIn (degLE 1) → c.LowDistinct → c.isNonneg = .ok true →
      ∃ v : Var ℚ, ∀ ρ, c.Sat ρ ↔ 0 ≤ ρ v.id := by
  intro h
  have h1 := SCon.okDeg_spec (n := 1) (c := ⟨.poly ⟨[wm1 1 0 1, wm0 (-5)]⟩, .k 0, .ge⟩)
    (by decide +kernel)
  obtain ⟨v, hv⟩ := h _ h1.1 h1.2
    ⟨by simp [Scalar.LowDistinct, wm1_degs, wm0_degs], trivial⟩ (by decide +kernel)
  have := (hv (fun _ => 1)).mpr zero_le_one
  exact absurd this (by decide +kernel)

/-- C39 is false for non-linear constraints: `x^3 >= 0` has the solution set `{x >= 0}` and is not
recognised. -/
theorem isNonneg_incomplete :
    (∀ ρ : ℕ → ℚ, SCon.Sat ρ ⟨.mono (wm1 1 0 3), .k 0, .ge⟩ ↔ 0 ≤ ρ 0) ∧
    SCon.isNonneg ⟨.mono (wm1 1 0 3), .k (0 : ℚ), .ge⟩ = .ok false := by
  refine ⟨fun ρ => ?_, by decide +kernel⟩
  unfold SCon.Sat
  rw [Scalar.value_eq_evalAt, Scalar.value_eq_evalAt]
  show 0 ≤ (1 : ℚ) * ((ρ 0 ^ 3) * 1) ↔ _
  rw [one_mul, mul_one]
  exact Odd.pow_nonneg_iff (by decide)

/-- `2x <= 6` -/
def wc4 : SCon ℚ := ⟨.mono (wm1 2 0 1), .k 6, .le⟩
/-- `-x >= -4` -/
def wc5 : SCon ℚ := ⟨.mono (wm1 (-1) 0 1), .k (-4), .ge⟩

theorem wc4_plain : wc4.Plain :=
  ⟨(SCon.okDeg_spec (n := 1) (by decide +kernel)).1, ⟨trivial, trivial⟩,
    (SCon.okDeg_spec (n := 1) (by decide +kernel)).2, by
      simp [wc4, Mono.den, coeff_monomial, wm1, Mono.degs]⟩

theorem wc5_plain : wc5.Plain :=
  ⟨(SCon.okDeg_spec (n := 1) (by decide +kernel)).1, ⟨trivial, trivial⟩,
    (SCon.okDeg_spec (n := 1) (by decide +kernel)).2, by
      simp [wc5, Mono.den, coeff_monomial, wm1, Mono.degs]⟩

theorem wc4_nonconst : wc4.Nonconst := by
  intro k h
  have hz : (0 : ℕ →₀ ℕ) ≠ Finsupp.single 0 1 := fun e => by simpa using DFunLike.congr_fun e 0
  have := congrArg (coeff (Finsupp.single 0 1)) h
  simp [wc4, Mono.den, coeff_monomial, wm1, Mono.degs, wv, coeff_C, hz] at this

theorem wc5_nonconst : wc5.Nonconst := by
  intro k h
  have hz : (0 : ℕ →₀ ℕ) ≠ Finsupp.single 0 1 := fun e => by simpa using DFunLike.congr_fun e 0
  have := congrArg (coeff (Finsupp.single 0 1)) h
  simp [wc5, Mono.den, coeff_monomial, wm1, Mono.degs, wv, coeff_C, hz] at this

/-- `2x <= 6` implies `-x >= -4`, and not conversely. -/
example : wc4.implies (.s wc5) = .ok true ∧ wc5.implies (.s wc4) = .ok false := by decide +kernel

example (ρ : ℕ → ℚ) (h : wc4.Sat ρ) : wc5.Sat ρ :=
  implies_sound_partial wc4_plain wc5_plain wc4_nonconst wc5_nonconst (by decide +kernel) ρ h

example : ∃ r, wc4.implies (.s wc5) = .ok r ∧ (r = true ↔ ∀ ρ, wc4.Sat ρ → wc5.Sat ρ) :=
  implies_exact_partial wc4_plain wc5_plain wc4_nonconst wc5_nonconst (v := wx) (w := wx) rfl
    (by rintro u (h | h) <;> simp_all [wc4, Scalar.Mentions, wm1])
    (by rintro u (h | h) <;> simp_all [wc5, Scalar.Mentions, wm1])

/-- `0 <= 3x` -/
def wc6 : SCon ℚ := ⟨.k 0, .mono (wm1 3 0 1), .le⟩

example : wc6.isNonneg = .ok true := by decide +kernel

example : ∃ v, wc6.Mentions v ∧ ∀ ρ, wc6.Sat ρ ↔ 0 ≤ ρ v.id :=
  isNonneg_sound_partial rearrFree_degLE_one (SCon.okDeg_spec (n := 1) (by decide +kernel)).1
    (SCon.okDeg_spec (n := 1) (by decide +kernel)).2 ⟨trivial, trivial⟩
    (by simp [wc6]) (by decide +kernel)

end Verif
