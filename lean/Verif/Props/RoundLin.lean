import Verif.Props.Round
import Verif.Props.Constr

/-!
# C72: rounding errors of linear representations

`LinearInequalityConstraintRepresentation` and its equality twin compute on `float64`.  C36 and C37 are about
exact numbers.  Here the coefficients are any finite floats: reading a coefficient rounds nothing, every
entry of the returned row has at most one rounding, the returned bound is correctly rounded, and so the
half-space or hyperplane that is returned differs from the one that was meant by a stated margin.
-/

set_option linter.unusedSectionVars false

namespace Verif

open MvPolynomial

/-! ## Specification -/

/-- A linear constraint between floats: well formed, first degree, finite coefficients, no term written twice
in a side, bounds of variables that are not NaN. -/
structure SCon.LinearFloats (c : SCon F64) : Prop where
  canon : c.Canon
  terms : c.TermsIn (degLE 1)
  lfloats : c.lhs.Floats
  rfloats : c.rhs.Floats
  lonce : c.lhs.Repeats 1
  ronce : c.rhs.Repeats 1
  bounds : ∀ v, c.Mentions v → v.BoundsOK

/-- `≥` constraints are returned with the opposite signs. -/
def Sense.sign : Sense → ℚ
  | .ge => -1
  | _ => 1

/-- The row `A` and the number `b` stand for the constraint `c` over the variables `ws`, with the sign `σ`: they
are finite floats, the entries of `A` have at most one rounding, relative to the sizes of the two coefficients
that were subtracted, and `b` is within one rounding of the exact number. -/
structure SCon.RowOf (c : SCon F64) (σ : ℚ) (ws : List (Var F64)) (A : List F64) (b : F64) : Prop where
  length : A.length = ws.length
  floats : ∀ x ∈ A, x.IsFloat
  float : b.IsFloat
  row : ∀ aw ∈ A.zip ws, |aw.1.val - σ * (coeff (Finsupp.single aw.2.id 1) c.lhs.exact.den -
      coeff (Finsupp.single aw.2.id 1) c.rhs.exact.den)| ≤
    1 / 2 ^ 53 * (coeff (Finsupp.single aw.2.id 1) c.lhs.exact.absolute.den +
      coeff (Finsupp.single aw.2.id 1) c.rhs.exact.absolute.den)
  bound : |b.val - σ * (coeff 0 c.rhs.exact.den - coeff 0 c.lhs.exact.den)| ≤
    1 / 2 ^ 53 * |coeff 0 c.rhs.exact.den - coeff 0 c.lhs.exact.den|

/-- The left side of the returned inequality at a point, as an exact number. -/
def rowValue (A : List F64) (ws : List (Var F64)) (ρ : ℕ → ℚ) : ℚ :=
  ((A.zip ws).map fun aw => aw.1.val * ρ aw.2.id).sum

/-- The size of the terms of the two sides at a point. -/
noncomputable def SCon.size (c : SCon F64) (ρ : ℕ → ℚ) : ℚ :=
  c.lhs.exact.absolute.value (fun i => |ρ i|) + c.rhs.exact.absolute.value (fun i => |ρ i|)

/-! ## The exact expression of a float expression -/

theorem Var.exact_ok {v : Var F64} (hb : v.BoundsOK) (h : v.OK) : v.exact.OK := by
  have e := (vrel_iff.2 ⟨hb, rfl⟩ : VRel F64.model v v.exact).le
  unfold Var.OK at h ⊢
  rw [← e]; exact h

theorem Mono.exact_canon {m : Mono F64} (hb : ∀ v ∈ m.vars, v.BoundsOK) (h : m.Canon) : m.exact.Canon := by
  refine ⟨by simpa [Mono.exact] using h.len, h.pos, ?_, ?_⟩
  · have : (m.exact.vars.map (·.id)) = m.vars.map (·.id) := by
      simp [Mono.exact, Var.exact, Function.comp_def]
    rw [this]; exact h.nodup
  · intro v hv
    obtain ⟨w, hw, rfl⟩ := List.mem_map.mp hv
    exact Var.exact_ok (hb w hw) (h.ok w hw)

theorem Scalar.exact_canon {e : Scalar F64} (hb : ∀ v, e.Mentions v → v.BoundsOK) (h : e.Canon) :
    e.exact.Canon := by
  cases e with
  | k c => trivial
  | var v => exact Var.exact_ok (hb v rfl) h
  | mono m => exact Mono.exact_canon hb h
  | poly p =>
    have h' : p.Canon := h
    refine ⟨by simpa using h'.ne, fun m hm => ?_⟩
    obtain ⟨n, hn, rfl⟩ := List.mem_map.mp hm
    exact Mono.exact_canon (fun v hv => hb v ⟨n, hn, hv⟩) (h'.all n hn)

theorem Scalar.exact_terms {D : Set (ℕ →₀ ℕ)} {e : Scalar F64} (h : e.TermsIn D) : e.exact.TermsIn D := by
  have key : ∀ m : Mono F64, m.vars = [] ∨ m.degs ∈ D → m.exact.vars = [] ∨ m.exact.degs ∈ D := by
    intro m h
    rw [Mono.exact_degs]
    simpa [Mono.exact] using h
  cases e with
  | k c => trivial
  | var v => exact h
  | mono m => exact key m h
  | poly p =>
    intro m hm
    obtain ⟨n, hn, rfl⟩ := List.mem_map.mp hm
    exact key n (h n hn)

theorem Scalar.exact_mentions {e : Scalar F64} {w : Var ℚ} (h : e.exact.Mentions w) :
    ∃ v, e.Mentions v ∧ w = v.exact := by
  cases e with
  | k c => exact h.elim
  | var v => exact ⟨v, rfl, h⟩
  | mono m =>
    obtain ⟨v, hv, rfl⟩ := List.mem_map.mp (show w ∈ m.vars.map Var.exact from h)
    exact ⟨v, hv, rfl⟩
  | poly p =>
    obtain ⟨m, hm, hw⟩ := h
    obtain ⟨n, hn, rfl⟩ := List.mem_map.mp hm
    obtain ⟨v, hv, rfl⟩ := List.mem_map.mp (show w ∈ n.vars.map Var.exact from hw)
    exact ⟨v, ⟨n, hn, hv⟩, rfl⟩

theorem Scalar.exact_low {e : Scalar F64} (h : e.Repeats 1) : e.exact.LowDistinct := by
  cases e with
  | poly p =>
    have hn : (p.monos.map fun m => m.degs).Nodup := List.nodup_iff_count_le_one.mpr h
    show (p.monos.map Mono.exact).Pairwise _
    rw [List.pairwise_map]
    refine (List.pairwise_map.mp hn).imp ?_
    intro a b hab he
    rw [Mono.exact_degs, Mono.exact_degs] at he
    exact absurd he hab
  | _ => trivial

theorem Scalar.Floats.within {e : Scalar F64} (h : e.Floats) (hb : ∀ v, e.Mentions v → v.BoundsOK) :
    e.Within 1074 e.exact.absSum := by
  have key : ∀ c : F64, c.IsFloat → ∃ k : ℤ, c.val = (k : ℚ) / 2 ^ 1074 := by
    rintro _ ⟨q, rfl, hq⟩
    exact mem_dyadics.1 (F64.able_grid hq)
  have fin : ∀ c : F64, c.IsFloat → c.Finite := fun c ⟨q, hq, _⟩ => ⟨q, hq⟩
  refine ⟨?_, ?_, le_refl _⟩
  · cases e with
    | k c => exact fin c (h _ (List.mem_singleton.mpr rfl))
    | var v => exact hb v rfl
    | mono m => exact ⟨fin _ (h _ (List.mem_singleton.mpr rfl)), hb⟩
    | poly p => exact fun m hm => ⟨fin _ (h m hm), fun v hv => hb v ⟨m, hm, hv⟩⟩
  · intro c hc
    cases e with
    | k c' =>
      rw [show c = c'.val from List.mem_singleton.mp hc]
      exact key c' (h _ (List.mem_singleton.mpr rfl))
    | var v =>
      rw [show c = 1 from List.mem_singleton.mp hc]
      exact ⟨2 ^ 1074, by rw [Int.cast_pow]; exact (div_self (by positivity)).symm⟩
    | mono m =>
      rw [show c = m.coeff.val from List.mem_singleton.mp hc]
      exact key _ (h _ (List.mem_singleton.mpr rfl))
    | poly p =>
      obtain ⟨n, hn, rfl⟩ := List.mem_map.mp hc
      obtain ⟨m, hm, rfl⟩ := List.mem_map.mp hn
      exact key _ (h m hm)

theorem able_zero : F64.Able 0 := by simpa using F64.able_small (k := 0) (by norm_num)

/-- With no exponent vector twice, every coefficient is a float. -/
theorem Scalar.coeff_able {e : Scalar F64} (h : e.Floats) (h1 : e.Repeats 1) (d : ℕ →₀ ℕ) :
    F64.Able (coeff d e.exact.den) := by
  rw [Scalar.exact_vd]
  have key : ∀ l : List (Mono F64), (∀ m ∈ l, m.coeff.IsFloat) → (l.map fun m => m.degs).count d ≤ 1 →
      F64.Able (coeff d (vden F64.rounding l)) ∧
        ((l.map fun m => m.degs).count d = 0 → coeff d (vden F64.rounding l) = 0) := by
    intro l
    induction l with
    | nil => exact fun _ _ => ⟨by simpa using able_zero, fun _ => by simp⟩
    | cons m l ih =>
      intro hf hc
      rw [List.map_cons, List.count_cons] at hc ⊢
      obtain ⟨i1, i2⟩ := ih (fun x hx => hf x (by simp [hx])) (by omega)
      rw [vden_cons, coeff_add, vterm, coeff_monomial]
      by_cases hm : m.degs = d
      · rw [if_pos (by simpa using hm)] at hc ⊢
        rw [i2 (by omega), add_zero]
        refine ⟨?_, fun h => absurd h (by simp [hm])⟩
        obtain ⟨q, hq, hq'⟩ := hf m (by simp)
        rw [hq]; exact hq'
      · rw [if_neg (by simpa using hm)] at hc ⊢
        rw [zero_add]
        exact ⟨i1, fun h => i2 (by omega)⟩
  exact (key _ h (h1 d)).1

/-! ## Reading coefficients rounds nothing -/

/-- `Constant` returns the constant term. -/
theorem constant_read {e : Scalar F64} (ce : e.Canon) (fe : e.Floats) (he : e.Repeats 1)
    (hb : ∀ v, e.Mentions v → v.BoundsOK) : e.constant = .ok (.fin (coeff 0 e.exact.den)) := by
  have h := (fe.within hb).srel.constant
  rw [constant_partial (Scalar.exact_canon hb ce) (Scalar.exact_low he)] at h
  revert h
  generalize e.constant = x
  intro h
  match x, h with
  | .ok x, h => exact congrArg _ h.1.1

/-- `LinearCoeff` returns the coefficients of the listed variables. -/
theorem linearCoeff_read {e : Scalar F64} (ce : e.Canon) (fe : e.Floats) (he : e.Repeats 1)
    (hb : ∀ v, e.Mentions v → v.BoundsOK) (hm : ∀ m, e = .mono m → m.vars ≠ []) {ws : List (Var F64)}
    (hne : ws ≠ []) (hok : ∀ w ∈ ws, w.OK ∧ w.BoundsOK) (hnd : (ws.map (·.id)).Nodup)
    (hcov : ∀ v, e.Mentions v → v.id ∈ ws.map (·.id)) :
    e.linearCoeff [ws] = .ok (ws.map fun w => .fin (coeff (Finsupp.single w.id 1) e.exact.den)) := by
  have ids : (ws.map Var.exact).map (·.id) = ws.map (·.id) := by
    simp [Var.exact, Function.comp_def]
  have h := (fe.within hb).srel.linearCoeff (dyadicGrids.one 1074) (wrt := [ws])
    (wrt' := [ws.map Var.exact]) (List.Forall₂.cons ((forall₂_map_iff (A := VRel F64.model) (P := Var.BoundsOK)
      (f := Var.exact) (fun _ _ => vrel_iff)).2 ⟨fun w hw => (hok w hw).2, rfl⟩) List.Forall₂.nil)
  rw [linearCoeff_partial (Scalar.exact_canon hb ce) (Scalar.exact_low he) (fun m hm' => by
      cases e with
      | mono m' =>
        cases hm'
        have := hm m' rfl
        simpa [Mono.exact] using this
      | _ => cases hm') (by simpa using hne) (fun w hw => by
      obtain ⟨x, hx, rfl⟩ := List.mem_map.mp hw
      exact Var.exact_ok (hok x hx).2 (hok x hx).1) (by rw [ids]; exact hnd) (fun v hv => by
      obtain ⟨x, hx, rfl⟩ := Scalar.exact_mentions hv
      rw [ids]; exact hcov x hx)] at h
  revert h
  generalize e.linearCoeff [ws] = x
  intro h
  match x, h with
  | .ok x, h =>
    have key : ∀ (x : List F64) (l : List ℚ), List.Forall₂ (fun x q => x = .fin q) x l → x = l.map .fin := by
      intro x l h
      induction h with
      | nil => rfl
      | cons h _ ih => rw [h, ih]; rfl
    have := key _ _ (List.Forall₂.imp (fun _ _ h => h.1.1) h)
    rw [this, List.map_map, List.map_map]
    rfl

/-! ## The difference of the sides -/

/-- What is simplified is no longer a constant monomial. -/
theorem Scalar.minus_notConst {a b r : Scalar F64} (ha : a.Canon) (hb : b.Canon) (h : a.minus b = .ok r) :
    ∀ m, r = .mono m → m.vars ≠ [] := by
  have simp : ∀ {s r : Scalar F64}, s.Canon → s.asSimplified = .ok r → ∀ m, r = .mono m → m.vars ≠ [] := by
    intro s r hs h m hm
    subst hm
    cases s with
    | k c => cases h
    | var v => cases h
    | mono m' =>
      have hm : m'.Canon := hs
      change m'.asSimplified = _ at h
      rw [Mono.asSimplified_eq hm, Except.ok.injEq] at h
      split at h
      · cases h
      · rename_i hv
        split at h
        · cases h
        · split at h
          · split at h <;> cases h
          · cases h; exact hv
    | poly p =>
      have hg : Good (fun _ => True) Set.univ (.poly p) := good_of_univ (s := .poly p) hs
      obtain ⟨r', h5, q, hq, -, -, hr⟩ := Poly.asSimplified_ok hg.1 hg.2
      change p.asSimplified = _ at h
      rw [h, Except.ok.injEq] at h5
      subst h5
      cases hr with
      | mono _ _ hv _ => exact hv
  unfold Scalar.minus at h
  rw [(good_of_univ ha).check, (good_of_univ hb).check, Go.ok_bind, Go.ok_bind] at h
  obtain ⟨s, hs, h2⟩ := Scalar.mulF64_good (good_of_univ hb) (negOne : F64)
  rw [hs, Go.ok_bind] at h
  obtain ⟨t, ht, e⟩ := Scalar.plus_ends (good_of_univ ha) h2
  rw [good_iff] at ht
  exact simp ht.1 (e ▸ h)

theorem degLE_one_flat : degLE 1 ⊆ flat := fun _ hd => degLE_two_flat (le_trans (b := 1) hd (by decide))

variable {c : SCon F64} {ws : List (Var F64)}

/-- The coefficients of the difference. -/
theorem linear_diff (h : c.LinearFloats) (hne : ws ≠ []) (hok : ∀ w ∈ ws, w.OK ∧ w.BoundsOK)
    (hnd : (ws.map (·.id)).Nodup) (hcov : c.CoveredBy ws)
    (hG : NoOverflow 1 (c.lhs.exact.absolute.den + c.rhs.exact.absolute.den)) :
    ∃ d : Scalar F64, c.lhs.minus c.rhs = .ok d ∧
      d.linearCoeff [ws] = .ok (ws.map fun w => .fin (coeff (Finsupp.single w.id 1) d.exact.den)) ∧
      (∀ e, F64.Able (coeff e d.exact.den)) ∧
      ∀ e, |coeff e d.exact.den - (coeff e c.lhs.exact.den - coeff e c.rhs.exact.den)| ≤
        1 / 2 ^ 53 * (coeff e c.lhs.exact.absolute.den + coeff e c.rhs.exact.absolute.den) := by
  have gl : Good c.Mentions (degLE 1) c.lhs := good_mentions h.canon.lhs h.terms.lhs (fun v h => Or.inl h)
  have gr : Good c.Mentions (degLE 1) c.rhs := good_mentions h.canon.rhs h.terms.rhs (fun v h => Or.inr h)
  have hG' := hG
  rw [Scalar.absolute_ad, Scalar.absolute_ad] at hG'
  obtain ⟨d, h1, h2⟩ := Scalar.minus_appr rearrFree_degLE_one (F := F64.rounding) (P := c.Mentions) (ka := 1)
    (kb := 1) ⟨gl, h.lfloats, DegsLe.keys h.lonce⟩ ⟨gr, h.rfloats, DegsLe.keys h.ronce⟩ (fits_of hG')
  obtain ⟨cd, -, md⟩ := good_iff.mp h2.good
  have once : d.Repeats 1 := (h2.dopd degLE_one_flat).degs
  have fd : d.Floats := h2.appr.fin
  refine ⟨d, h1, linearCoeff_read cd fd once (fun v hv => h.bounds v (md v hv))
    (Scalar.minus_notConst h.canon.lhs h.canon.rhs h1) hne hok hnd (fun v hv => hcov v (md v hv)),
    Scalar.coeff_able fd once, fun e => ?_⟩
  have := h2.appr.err e
  have e1 : F64.rounding.u = 1 / 2 ^ 53 := rfl
  rw [coeff_sub, coeff_add, ← Scalar.absolute_ad, ← Scalar.absolute_ad, ← Scalar.exact_vd, ← Scalar.exact_vd,
    e1, pow_one, add_sub_cancel_left] at this
  rw [Scalar.exact_vd]
  exact this

/-- The right side: one rounding of the exact value. -/
theorem rhs_round {p q : ℚ} (hp : F64.Able p) (hq : F64.Able q) (hs : |p - q| ≤ 2 ^ 1023) :
    ∃ b, GoNum.sub (F64.fin p) (F64.fin q) = .fin b ∧ F64.Able b ∧ |b - (p - q)| ≤ 1 / 2 ^ 53 * |p - q| := by
  rw [sub_eq_add_neg] at hs ⊢
  obtain ⟨h1, h2, h3⟩ := F64.ofRat_round hs
    (Or.inr ((dyadics 1074).add_mem (F64.able_grid hp) (F64.able_grid (F64.able_neg hq))))
  exact ⟨_, h1, h2, h3⟩

theorem linear_const (h : c.LinearFloats)
    (hG : NoOverflow 1 (c.lhs.exact.absolute.den + c.rhs.exact.absolute.den)) :
    c.rhs.constant = .ok (.fin (coeff 0 c.rhs.exact.den)) ∧ c.lhs.constant = .ok (.fin (coeff 0 c.lhs.exact.den)) ∧
    ∃ b, GoNum.sub (F64.fin (coeff 0 c.rhs.exact.den)) (F64.fin (coeff 0 c.lhs.exact.den)) = .fin b ∧ F64.Able b ∧
      |b - (coeff 0 c.rhs.exact.den - coeff 0 c.lhs.exact.den)| ≤
        1 / 2 ^ 53 * |coeff 0 c.rhs.exact.den - coeff 0 c.lhs.exact.den| := by
  refine ⟨constant_read h.canon.rhs h.rfloats h.ronce fun v hv => h.bounds v (Or.inr hv),
    constant_read h.canon.lhs h.lfloats h.lonce fun v hv => h.bounds v (Or.inl hv),
    rhs_round (Scalar.coeff_able h.rfloats h.ronce 0) (Scalar.coeff_able h.lfloats h.lonce 0) ?_⟩
  have e1 : |coeff 0 c.rhs.exact.den| ≤ coeff 0 c.rhs.exact.absolute.den := by
    rw [Scalar.exact_vd, Scalar.absolute_ad]; exact vden_le_aden _ 0
  have e2 : |coeff 0 c.lhs.exact.den| ≤ coeff 0 c.lhs.exact.absolute.den := by
    rw [Scalar.exact_vd, Scalar.absolute_ad]; exact vden_le_aden _ 0
  have e3 := hG 0
  rw [pow_one, coeff_add] at e3
  have e4 := absolute_coeff_nonneg c.lhs 0
  have e5 := absolute_coeff_nonneg c.rhs 0
  rw [abs_of_nonneg (add_nonneg e4 e5)] at e3
  have e6 := abs_sub (coeff 0 c.rhs.exact.den) (coeff 0 c.lhs.exact.den)
  have e7 : (1 : ℚ) * (coeff 0 c.lhs.exact.absolute.den + coeff 0 c.rhs.exact.absolute.den) ≤
      (1 + 1 / 2 ^ 53) * (coeff 0 c.lhs.exact.absolute.den + coeff 0 c.rhs.exact.absolute.den) :=
    mul_le_mul_of_nonneg_right (by norm_num) (add_nonneg e4 e5)
  rw [one_mul] at e7
  exact e6.trans ((add_le_add e1 e2).trans (by rw [add_comm]; exact e7.trans e3))

theorem requireLinear_float (h : c.LinearFloats) : (Con.s c).requireLinear = .ok () := by
  have deg : ∀ e : Scalar F64, e.Canon → e.TermsIn (degLE 1) → e.Floats → (∀ v, e.Mentions v → v.BoundsOK) →
      Expr.isLinear (.s e) = .ok true := by
    intro e ce te fe be
    have h1 := (constant_degree_float64 (fe.within be)).2
    obtain ⟨d, h2, h3⟩ := Scalar.degree_le_iff (Scalar.exact_canon be ce) (n := 1)
    have h4 : d ≤ 1 := h3.mpr (Scalar.exact_terms te)
    show (do return decide ((← e.degree) ≤ 1)) = _
    rw [h1, h2]
    show Except.ok (decide (d ≤ 1)) = _
    rw [decide_eq_true h4]
  unfold Con.requireLinear Con.isLinear
  show (Expr.isLinear (.s c.rhs) >>= fun b => if b = true then Expr.isLinear (.s c.lhs) else pure false) >>= _ = _
  rw [deg _ h.canon.rhs h.terms.rhs h.rfloats fun v hv => h.bounds v (Or.inr hv), Go.ok_bind, if_pos rfl,
    deg _ h.canon.lhs h.terms.lhs h.lfloats fun v hv => h.bounds v (Or.inl hv)]
  rfl

theorem check_float (h : c.Canon) : c.check = .ok () := by
  unfold SCon.check
  rw [(good_of_univ h.lhs).check, (good_of_univ h.rhs).check, h.sense.check]
  rfl

/-! ## The representations -/

theorem rowOf_le (h : c.LinearFloats) {d : Scalar F64} {b : ℚ} (h1 : ∀ e, F64.Able (coeff e d.exact.den))
    (h2 : ∀ e, |coeff e d.exact.den - (coeff e c.lhs.exact.den - coeff e c.rhs.exact.den)| ≤
        1 / 2 ^ 53 * (coeff e c.lhs.exact.absolute.den + coeff e c.rhs.exact.absolute.den)) (hb : F64.Able b)
    (hb2 : |b - (coeff 0 c.rhs.exact.den - coeff 0 c.lhs.exact.den)| ≤
        1 / 2 ^ 53 * |coeff 0 c.rhs.exact.den - coeff 0 c.lhs.exact.den|) :
    c.RowOf 1 ws (ws.map fun w => .fin (coeff (Finsupp.single w.id 1) d.exact.den)) (.fin b) := by
  refine ⟨by simp, ?_, ⟨b, rfl, hb⟩, ?_, by rw [one_mul]; exact hb2⟩
  · intro x hx
    obtain ⟨w, -, rfl⟩ := List.mem_map.mp hx
    exact ⟨_, rfl, h1 _⟩
  · rintro ⟨a, w⟩ haw
    have e : ∀ (f : Var F64 → F64) (l : List (Var F64)), (a, w) ∈ (l.map f).zip l → a = f w := by
      intro f l hl
      induction l with
      | nil => simp at hl
      | cons x l ih =>
        rw [List.map_cons, List.zip_cons_cons, List.mem_cons] at hl
        rcases hl with hl | hl
        · cases hl; rfl
        · exact ih hl
    rw [e _ _ haw, one_mul]
    exact h2 _

theorem rowOf_ge {A : List F64} {b : F64} (h : c.RowOf 1 ws A b) :
    c.RowOf (-1) ws (A.map fun x => GoNum.mul negOne x) (GoNum.neg b) := by
  have hneg : ∀ x : F64, x.IsFloat → ∃ q, x = .fin q ∧ F64.Able (-q) ∧
      GoNum.mul negOne x = F64.fin (-q) ∧ GoNum.neg x = F64.fin (-q) := by
    rintro _ ⟨q, rfl, hq⟩
    refine ⟨q, rfl, F64.able_neg hq, ?_, rfl⟩
    show F64.ofRat (-1 * q) = _
    rw [neg_one_mul]; exact F64.able_neg hq
  have flip : ∀ p q : ℚ, |-p - -1 * q| = |p - 1 * q| := by
    intro p q
    rw [show -p - -1 * q = -(p - 1 * q) by ring, abs_neg]
  refine ⟨by simpa using h.length, ?_, ?_, ?_, ?_⟩
  · intro x hx
    obtain ⟨y, hy, rfl⟩ := List.mem_map.mp hx
    obtain ⟨q, -, h1, h2, -⟩ := hneg y (h.floats y hy)
    exact ⟨_, h2, h1⟩
  · obtain ⟨q, -, h1, -, h2⟩ := hneg b h.float
    exact ⟨_, h2, h1⟩
  · rintro ⟨x, w⟩ hx
    rw [List.zip_map_left] at hx
    obtain ⟨⟨y, w'⟩, hy, e⟩ := List.mem_map.mp hx
    cases e
    obtain ⟨q, e1, -, e2, -⟩ := hneg y (h.floats y (List.of_mem_zip hy).1)
    have := h.row _ hy
    show |F64.val (GoNum.mul negOne y) - _| ≤ _
    rw [e2]
    rw [e1] at this
    exact (flip _ _).le.trans this
  · obtain ⟨q, e1, -, -, e2⟩ := hneg b h.float
    have := h.bound
    rw [e2]
    rw [e1] at this
    exact (flip _ _).le.trans this

/-- C72: the representation of an inequality. -/
theorem linearIneq_rounding (h : c.LinearFloats) (hne : ws ≠ []) (hok : ∀ w ∈ ws, w.OK ∧ w.BoundsOK)
    (hnd : (ws.map (·.id)).Nodup) (hcov : c.CoveredBy ws)
    (hG : NoOverflow 1 (c.lhs.exact.absolute.den + c.rhs.exact.absolute.den)) :
    ∃ A b, c.linearIneq [ws] = .ok (A, b) ∧ c.RowOf c.sense.sign ws A b := by
  obtain ⟨d, h1, h2, h3, h4⟩ := linear_diff h hne hok hnd hcov hG
  obtain ⟨r1, r2, b, r3, r4, r5⟩ := linear_const h hG
  have row := rowOf_le (ws := ws) h h3 h4 r4 r5
  unfold SCon.linearIneq
  rw [check_float h.canon, Go.ok_bind, requireLinear_float h, Go.ok_bind, h1, Go.ok_bind, h2, Go.ok_bind, r1,
    Go.ok_bind, r2, Go.ok_bind, r3]
  refine ⟨_, _, rfl, ?_⟩
  by_cases hs : c.sense = .ge
  · rw [if_pos hs, if_pos hs, hs]
    exact rowOf_ge row
  · rw [if_neg hs, if_neg hs]
    have : c.sense.sign = 1 := by
      revert hs
      cases c.sense <;> simp [Sense.sign]
    rw [this]
    exact row

/-- C72: the representation of an equality. -/
theorem linearEq_rounding (h : c.LinearFloats) (hs : c.sense = .eq) (hne : ws ≠ [])
    (hok : ∀ w ∈ ws, w.OK ∧ w.BoundsOK) (hnd : (ws.map (·.id)).Nodup) (hcov : c.CoveredBy ws)
    (hG : NoOverflow 1 (c.lhs.exact.absolute.den + c.rhs.exact.absolute.den)) :
    ∃ A b, c.linearEq [ws] = .ok (A, b) ∧ c.RowOf 1 ws A b := by
  obtain ⟨d, h1, h2, h3, h4⟩ := linear_diff h hne hok hnd hcov hG
  obtain ⟨r1, r2, b, r3, r4, r5⟩ := linear_const h hG
  unfold SCon.linearEq
  rw [check_float h.canon, Go.ok_bind, requireLinear_float h, Go.ok_bind, if_neg (by simp [hs]), h1, Go.ok_bind, h2,
    Go.ok_bind, r1, Go.ok_bind, r2, Go.ok_bind, r3]
  exact ⟨_, _, rfl, rowOf_le h h3 h4 r4 r5⟩

/-! ## What the bound means -/

theorem Scalar.absolute_canon {e : Scalar ℚ} (h : e.Canon) : e.absolute.Canon := by
  have key : ∀ m : Mono ℚ, m.Canon → m.absolute.Canon := fun m h => ⟨h.len, h.pos, h.nodup, h.ok⟩
  cases e with
  | k c => trivial
  | var v => exact h
  | mono m => exact key m h
  | poly p =>
    have h' : p.Canon := h
    refine ⟨by simpa using h'.ne, fun m hm => ?_⟩
    obtain ⟨n, hn, rfl⟩ := List.mem_map.mp hm
    exact key n (h'.all n hn)

theorem Scalar.absolute_terms {D : Set (ℕ →₀ ℕ)} {e : Scalar ℚ} (h : e.TermsIn D) : e.absolute.TermsIn D := by
  cases e with
  | k c => trivial
  | var v => exact h
  | mono m => exact h
  | poly p =>
    intro m hm
    obtain ⟨n, hn, rfl⟩ := List.mem_map.mp hm
    exact h n hn

theorem Scalar.absolute_mentions {e : Scalar ℚ} {w : Var ℚ} (h : e.absolute.Mentions w) : e.Mentions w := by
  cases e with
  | k c => exact h.elim
  | var v => exact h
  | mono m => exact h
  | poly p =>
    obtain ⟨m, hm, hw⟩ := h
    obtain ⟨n, hn, rfl⟩ := List.mem_map.mp hm
    exact ⟨n, hn, hw⟩

private theorem row_sums (σ : ℚ) (ρ : ℕ → ℚ) (l r L R : ℕ → ℚ) (A : List F64) : ∀ (ws : List (Var F64)),
    A.length = ws.length →
    (∀ aw ∈ A.zip ws, |aw.1.val - σ * (l aw.2.id - r aw.2.id)| ≤ 1 / 2 ^ 53 * (L aw.2.id + R aw.2.id)) →
    |rowValue A ws ρ - σ * (((ws.map (·.id)).map fun i => l i * ρ i).sum -
      ((ws.map (·.id)).map fun i => r i * ρ i).sum)| ≤
      1 / 2 ^ 53 * (((ws.map (·.id)).map fun i => L i * |ρ i|).sum + ((ws.map (·.id)).map fun i => R i * |ρ i|).sum) := by
  induction A with
  | nil =>
    intro ws hl _
    have : ws = [] := List.length_eq_zero_iff.mp hl.symm
    subst this
    simp [rowValue]
  | cons a A ih =>
    intro ws hl hr
    cases ws with
    | nil => cases hl
    | cons w ws =>
      have i1 := ih ws (by simpa using hl) (fun aw haw => hr aw (by simp [haw]))
      have i2 := mul_le_mul_of_nonneg_right (hr (a, w) (by simp)) (abs_nonneg (ρ w.id))
      rw [← abs_mul] at i2
      have e1 : rowValue (a :: A) (w :: ws) ρ = a.val * ρ w.id + rowValue A ws ρ := by simp [rowValue]
      rw [e1]
      simp only [List.map_cons, List.sum_cons]
      have i3 := abs_add_le ((a.val - σ * (l w.id - r w.id)) * ρ w.id) (rowValue A ws ρ -
        σ * (((ws.map (·.id)).map fun i => l i * ρ i).sum - ((ws.map (·.id)).map fun i => r i * ρ i).sum))
      refine le_trans (le_of_eq (congrArg _ ?_)) (i3.trans ((add_le_add i2 i1).trans (le_of_eq ?_)))
      · ring
      · ring

/-- C72: at every point, the difference of the sides of the returned inequality is the difference of the sides of
the constraint, up to `2^-53` times the size of the terms. -/
theorem rowOf_margin (h : c.LinearFloats) (hnd : (ws.map (·.id)).Nodup) (hcov : c.CoveredBy ws) {σ : ℚ}
    (hσ : σ = 1 ∨ σ = -1) {A : List F64} {b : F64} (hr : c.RowOf σ ws A b) (ρ : ℕ → ℚ) :
    |rowValue A ws ρ - b.val - σ * (c.lhs.exact.value ρ - c.rhs.exact.value ρ)| ≤ 1 / 2 ^ 53 * c.size ρ := by
  have side : ∀ e : Scalar F64, e.Canon → e.TermsIn (degLE 1) → (∀ v, e.Mentions v → c.Mentions v) →
      e.exact.value ρ = coeff 0 e.exact.den +
        ((ws.map (·.id)).map fun i => coeff (Finsupp.single i 1) e.exact.den * ρ i).sum ∧
      e.exact.absolute.value (fun i => |ρ i|) = coeff 0 e.exact.absolute.den +
        ((ws.map (·.id)).map fun i => coeff (Finsupp.single i 1) e.exact.absolute.den * |ρ i|).sum := by
    intro e ce te me
    have hm : ∀ w, e.exact.Mentions w → w.id ∈ ws.map (·.id) := by
      intro w hw
      obtain ⟨v, hv, rfl⟩ := Scalar.exact_mentions hw
      exact hcov v (me v hv)
    have ce' := Scalar.exact_canon (fun v hv => h.bounds v (me v hv)) ce
    have te' := Scalar.exact_terms te
    exact ⟨Scalar.value_affine ce' te' hnd hm ρ, Scalar.value_affine (Scalar.absolute_canon ce')
      (Scalar.absolute_terms te') hnd (fun w hw => hm w (Scalar.absolute_mentions hw)) _⟩
  obtain ⟨l1, l2⟩ := side c.lhs h.canon.lhs h.terms.lhs fun v hv => Or.inl hv
  obtain ⟨r1, r2⟩ := side c.rhs h.canon.rhs h.terms.rhs fun v hv => Or.inr hv
  have key := row_sums σ ρ (fun i => coeff (Finsupp.single i 1) c.lhs.exact.den)
    (fun i => coeff (Finsupp.single i 1) c.rhs.exact.den) (fun i => coeff (Finsupp.single i 1) c.lhs.exact.absolute.den)
    (fun i => coeff (Finsupp.single i 1) c.rhs.exact.absolute.den) A ws hr.length hr.row
  have hb : |b.val - σ * (coeff 0 c.rhs.exact.den - coeff 0 c.lhs.exact.den)| ≤
      1 / 2 ^ 53 * (coeff 0 c.lhs.exact.absolute.den + coeff 0 c.rhs.exact.absolute.den) := by
    refine hr.bound.trans (mul_le_mul_of_nonneg_left ?_ (by norm_num))
    have e1 : |coeff 0 c.rhs.exact.den| ≤ coeff 0 c.rhs.exact.absolute.den := by
      rw [Scalar.exact_vd, Scalar.absolute_ad]; exact vden_le_aden _ 0
    have e2 : |coeff 0 c.lhs.exact.den| ≤ coeff 0 c.lhs.exact.absolute.den := by
      rw [Scalar.exact_vd, Scalar.absolute_ad]; exact vden_le_aden _ 0
    have := abs_sub (coeff 0 c.rhs.exact.den) (coeff 0 c.lhs.exact.den)
    linarith
  unfold SCon.size
  rw [l1, l2, r1, r2]
  generalize rowValue A ws ρ = x at key ⊢
  generalize (List.map (fun i => coeff (Finsupp.single i 1) c.lhs.exact.den * ρ i) (ws.map (·.id))).sum = s1 at key ⊢
  generalize (List.map (fun i => coeff (Finsupp.single i 1) c.rhs.exact.den * ρ i) (ws.map (·.id))).sum = s2 at key ⊢
  generalize (List.map (fun i => coeff (Finsupp.single i 1) c.lhs.exact.absolute.den * |ρ i|) (ws.map (·.id))).sum = s3
    at key ⊢
  generalize (List.map (fun i => coeff (Finsupp.single i 1) c.rhs.exact.absolute.den * |ρ i|) (ws.map (·.id))).sum = s4
    at key ⊢
  generalize coeff 0 c.lhs.exact.den = p at hb ⊢
  generalize coeff 0 c.rhs.exact.den = q at hb ⊢
  generalize coeff 0 c.lhs.exact.absolute.den = p' at hb ⊢
  generalize coeff 0 c.rhs.exact.absolute.den = q' at hb ⊢
  have i3 := (abs_sub (x - σ * (s1 - s2)) (b.val - σ * (q - p))).trans (add_le_add key hb)
  have e1 : x - b.val - σ * (p + s1 - (q + s2)) = x - σ * (s1 - s2) - (b.val - σ * (q - p)) := by ring
  have e2 : 1 / 2 ^ 53 * (p' + s3 + (q' + s4)) = 1 / 2 ^ 53 * (s3 + s4) + 1 / 2 ^ 53 * (p' + q') := by ring
  rw [e1, e2]
  exact i3

theorem sign_cases (s : Sense) : s.sign = 1 ∨ s.sign = -1 := by cases s <;> simp [Sense.sign]

/-- C72: a point of the returned half-space violates the constraint by at most the margin, and a point that meets
the constraint by more than the margin is in the returned half-space. -/
theorem linearIneq_margin (h : c.LinearFloats) (hs : c.sense = .le ∨ c.sense = .ge) (hne : ws ≠ [])
    (hok : ∀ w ∈ ws, w.OK ∧ w.BoundsOK) (hnd : (ws.map (·.id)).Nodup) (hcov : c.CoveredBy ws)
    (hG : NoOverflow 1 (c.lhs.exact.absolute.den + c.rhs.exact.absolute.den)) :
    ∃ A b, c.linearIneq [ws] = .ok (A, b) ∧ A.length = ws.length ∧ ∀ ρ,
      (rowValue A ws ρ ≤ b.val → match c.sense with
        | .ge => c.rhs.exact.value ρ ≤ c.lhs.exact.value ρ + 1 / 2 ^ 53 * c.size ρ
        | _ => c.lhs.exact.value ρ ≤ c.rhs.exact.value ρ + 1 / 2 ^ 53 * c.size ρ) ∧
      ((match c.sense with
        | .ge => c.rhs.exact.value ρ + 1 / 2 ^ 53 * c.size ρ ≤ c.lhs.exact.value ρ
        | _ => c.lhs.exact.value ρ + 1 / 2 ^ 53 * c.size ρ ≤ c.rhs.exact.value ρ) → rowValue A ws ρ ≤ b.val) := by
  obtain ⟨A, b, h1, h2⟩ := linearIneq_rounding h hne hok hnd hcov hG
  refine ⟨A, b, h1, h2.length, fun ρ => ?_⟩
  have := rowOf_margin h hnd hcov (sign_cases _) h2 ρ
  rw [abs_le] at this
  rcases hs with hs | hs <;> rw [hs] at this ⊢ <;> simp only [Sense.sign] at this ⊢ <;>
    exact ⟨fun h => by linarith, fun h => by linarith⟩

/-- C72: the returned hyperplane. -/
theorem linearEq_margin (h : c.LinearFloats) (hs : c.sense = .eq) (hne : ws ≠ [])
    (hok : ∀ w ∈ ws, w.OK ∧ w.BoundsOK) (hnd : (ws.map (·.id)).Nodup) (hcov : c.CoveredBy ws)
    (hG : NoOverflow 1 (c.lhs.exact.absolute.den + c.rhs.exact.absolute.den)) :
    ∃ A b, c.linearEq [ws] = .ok (A, b) ∧ A.length = ws.length ∧ ∀ ρ,
      (rowValue A ws ρ = b.val → |c.lhs.exact.value ρ - c.rhs.exact.value ρ| ≤ 1 / 2 ^ 53 * c.size ρ) ∧
      (c.lhs.exact.value ρ = c.rhs.exact.value ρ → |rowValue A ws ρ - b.val| ≤ 1 / 2 ^ 53 * c.size ρ) := by
  obtain ⟨A, b, h1, h2⟩ := linearEq_rounding h hs hne hok hnd hcov hG
  refine ⟨A, b, h1, h2.length, fun ρ => ?_⟩
  have := rowOf_margin h hnd hcov (Or.inl rfl) h2 ρ
  constructor
  · intro e
    rwa [e, sub_self, zero_sub, one_mul, abs_neg] at this
  · intro e
    rwa [e, sub_self, mul_zero, sub_zero] at this

/-! ## The hypotheses are met, and the margin is needed -/

/-- `0.1 x + 5 ≤ x`. -/
def f64LinCon : SCon F64 := ⟨f64Lin, .var (f64Var 1), .le⟩

theorem f64LinCon_floats : f64LinCon.LinearFloats where
  canon := ⟨f64Lin_canon, rfl, Or.inr (Or.inl rfl)⟩
  terms := ⟨f64Lin_terms, by
    show (Finsupp.single (f64Var 1).id 1).sum (fun _ e => e) ≤ 1
    rw [Finsupp.sum_single_index rfl]⟩
  lfloats := f64Lin_floats
  rfloats := floatCheck_spec (by decide +kernel)
  lonce := f64Lin_repeats
  ronce := fun d => by
    refine (List.count_le_length).trans (by simp [f64LinCon, Scalar.terms])
  bounds := by
    rintro v (hv | hv)
    · obtain ⟨m, hm, hv⟩ := hv
      fin_cases hm
      · fin_cases hv; exact f64Var_bounds _
      · cases hv
    · cases hv; exact f64Var_bounds _

theorem f64LinCon_fits : NoOverflow 1 (f64LinCon.lhs.exact.absolute.den + f64LinCon.rhs.exact.absolute.den) := by
  refine noOverflow_of_sum (fun d => ?_) (by norm_num) ?_
  · rw [coeff_add]
    exact add_nonneg (absolute_coeff_nonneg _ d) (absolute_coeff_nonneg _ d)
  · rw [map_add]
    have h1 : eval (fun _ => 1) f64LinCon.lhs.exact.absolute.den ≤ 6 := f64Lin_sum
    have h2 : eval (fun _ => 1) f64LinCon.rhs.exact.absolute.den ≤ 6 := by
      rw [absolute_eval]
      simp [f64LinCon, Scalar.exact, Scalar.absSum, Scalar.coeffs]
    have h3 := six_le 1 (by norm_num)
    rw [pow_one] at h3
    exact (add_le_add h1 h2).trans h3

theorem f64LinCon_covered : f64LinCon.CoveredBy [f64Var 1] := by
  rintro v (hv | hv)
  · obtain ⟨m, hm, hv⟩ := hv
    fin_cases hm
    · fin_cases hv; simp
    · cases hv
  · cases hv; simp

example : ∃ A b, f64LinCon.linearIneq [[f64Var 1]] = .ok (A, b) ∧ f64LinCon.RowOf 1 [f64Var 1] A b :=
  linearIneq_rounding f64LinCon_floats (by simp) (fun w hw => by
    rw [List.mem_singleton] at hw; subst hw; exact ⟨rfl, f64Var_bounds _⟩) (by simp) f64LinCon_covered f64LinCon_fits

/-- `2^53 x ≤ -x + 2^53`. -/
def f64BigCon : SCon F64 :=
  ⟨.mono ⟨.fin (2 ^ 53), [1], [f64Var 1]⟩, .poly ⟨[⟨.fin (-1), [1], [f64Var 1]⟩, ⟨.fin (2 ^ 53), [], []⟩]⟩, .le⟩

/-- The half-space of C36 is not exact on floats: `2^53 x ≤ -x + 2^53` is returned as `2^53 x ≤ 2^53`, which
holds at `1` although the constraint does not. -/
theorem linearIneq_float_false : f64BigCon.linearIneq [[f64Var 1]] = .ok ([.fin (2 ^ 53)], .fin (2 ^ 53)) ∧
    rowValue [.fin (2 ^ 53)] [f64Var 1] (fun _ => 1) ≤ (F64.fin (2 ^ 53)).val ∧
    ¬ f64BigCon.lhs.exact.value (fun _ => 1) ≤ f64BigCon.rhs.exact.value (fun _ => 1) := by
  refine ⟨by decide +kernel, by simp [rowValue, F64.val], ?_⟩
  have h1 : f64BigCon.lhs.exact.value (fun _ => 1) = 2 ^ 53 := by
    simp [f64BigCon, Scalar.exact, Mono.exact, Scalar.value, Scalar.den, Mono.den, F64.val, eval_monomial]
  have h2 : f64BigCon.rhs.exact.value (fun _ => 1) = -1 + 2 ^ 53 := by
    simp [f64BigCon, Scalar.exact, Mono.exact, Scalar.value, Scalar.den, Poly.den, Mono.den, F64.val, eval_monomial]
  rw [h1, h2]
  norm_num

end Verif
