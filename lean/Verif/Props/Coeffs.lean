import Verif.Lemmas.Coeffs
import Verif.Props.NormalForm
import Verif.Props.Vars

/-!
# C15, C16, C17: linear coefficients, constant term, affine reconstruction
-/

set_option linter.unusedSectionVars false

namespace Verif

open MvPolynomial

variable {R : Type} [Field R] [LinearOrder R]

/-- Results of `Simplify` (and hence of `Plus`) write no constant or first-degree term twice, with
no condition on the terms. -/
theorem simplify_lowDistinct {p q : Poly R} (hp : p.Canon) (h : p.simplify = .ok q) :
    (Scalar.poly q).LowDistinct := by
  have hg : Good (fun _ => True) Set.univ (.poly p) := good_of_univ (s := .poly p) hp
  have hnf := simplify_nf hg.1 hg.2 h
  show q.monos.Pairwise _
  have hcanon : ∀ m ∈ q.monos, m.Canon := fun m hm => (hnf.good m hm).canon
  -- no two terms with the same degree vector of size at most one
  have lin : ∀ i, q.monos.Pairwise (fun a b => ¬ (a.degs = Finsupp.single i 1 ∧
      b.degs = Finsupp.single i 1)) := by
    intro i
    have := List.pairwise_map.mp (hnf.linear_unique i)
    refine this.imp_of_mem ?_
    rintro a b ha hb hab ⟨h1, h2⟩
    rw [(hcanon a ha).degs_eq_single] at h1
    rw [(hcanon b hb).degs_eq_single] at h2
    exact hab ⟨h1.1, h1.2, h2.1, h2.2⟩
  have const : q.monos.Pairwise (fun a b => ¬ (a.degs = 0 ∧ b.degs = 0)) := by
    have hnc : ∀ nc : List (Mono R), (∀ m ∈ nc, m ∈ q.monos) → (∀ m ∈ nc, m.vars ≠ []) →
        nc.Pairwise (fun a b => ¬ (a.degs = 0 ∧ b.degs = 0)) := by
      intro nc h1 h2
      refine (List.pairwise_of_forall_mem_list (r := fun a b : Mono R => ¬ (a.degs = 0 ∧ b.degs = 0))
        ?_)
      rintro a ha b hb ⟨h0, -⟩
      exact h2 a ha ((hcanon a (h1 a ha)).degs_eq_zero.mp h0)
    rcases hnf.form with ⟨c, e⟩ | ⟨nc, -, hv, -, e | ⟨c, -, e⟩⟩
    · rw [e]; simp
    · rw [e]
      exact hnc nc (by rw [e]; exact fun m hm => hm) (fun m hm => (hv m hm).1)
    · rw [e, List.pairwise_cons]
      refine ⟨?_, hnc nc (by rw [e]; exact fun m hm => by simp [hm]) (fun m hm => (hv m hm).1)⟩
      rintro b hb ⟨-, h0⟩
      exact (hv b hb).1 ((hcanon b (by rw [e]; simp [hb])).degs_eq_zero.mp h0)
  rw [List.pairwise_iff_getElem] at const ⊢
  intro i j hi hj hij hd
  by_contra hlt
  have hle : (q.monos[i].degs.sum fun _ e => e) ≤ 1 := by omega
  by_cases h0 : q.monos[i].degs = 0
  · exact const i j hi hj hij ⟨h0, hd ▸ h0⟩
  · obtain ⟨k, hk⟩ : ∃ k, q.monos[i].degs = Finsupp.single k 1 := by
      obtain ⟨k, hk⟩ := Finsupp.ne_iff.mp h0
      have hk' : 0 < q.monos[i].degs k := Nat.pos_of_ne_zero hk
      refine ⟨k, ?_⟩
      have hks : k ∈ q.monos[i].degs.support := Finsupp.mem_support_iff.mpr hk
      have hsplit : (q.monos[i].degs.sum fun _ e => e) =
          q.monos[i].degs k + ∑ j ∈ q.monos[i].degs.support.erase k, q.monos[i].degs j := by
        unfold Finsupp.sum
        rw [← Finset.add_sum_erase _ _ hks]
      ext l
      by_cases hl : l = k
      · subst hl; rw [Finsupp.single_eq_same]; omega
      · rw [Finsupp.single_eq_of_ne hl]
        by_contra hdl
        have := Finset.single_le_sum (f := fun j => q.monos[i].degs j) (fun _ _ => Nat.zero_le _)
          (Finset.mem_erase.mpr ⟨hl, Finsupp.mem_support_iff.mpr hdl⟩)
        omega
    have := List.pairwise_iff_getElem.mp (lin k) i j hi hj hij
    exact this ⟨hk, hd ▸ hk⟩

private theorem lowDistinct_at {p : Poly R} (hd : (Scalar.poly p).LowDistinct) {d : ℕ →₀ ℕ}
    (h1 : (d.sum fun _ e => e) ≤ 1) :
    p.monos.Pairwise (fun a b => ¬ (a.degs = d ∧ b.degs = d)) := by
  refine List.Pairwise.imp ?_ hd
  rintro a b h ⟨ha, hb⟩
  have := h (ha.trans hb.symm)
  rw [ha] at this
  omega

private theorem poly_check {p : Poly R} (hp : p.Canon) : p.check = .ok () :=
  Good.check (s := .poly p) (good_of_univ (s := .poly p) hp)

/-! ## C16 -/

/-- C16: `Constant()` is the constant term of the denoted polynomial.  Missing: polynomials in which
two constant terms are written (`constant_false`); `Simplify` removes them
(`simplify_lowDistinct`). -/
theorem constant_partial {e : Scalar R} (he : e.Canon) (hd : e.LowDistinct) :
    e.constant = .ok (coeff 0 e.den) := by
  cases e with
  | k c => simp [Scalar.constant, Go.pure_eq]
  | var v =>
    simp only [Scalar.constant, Go.pure_eq, Scalar.den_var, gn_zero, coeff_X]
    rw [if_neg]
    intro h
    have := congrArg (fun g => g v.id) h
    simp at this
  | mono m =>
    have hm : m.Canon := he
    simp only [Scalar.constant, Go.pure_eq, Scalar.den_mono, Mono.den, coeff_monomial, Mono.constant]
    by_cases hv : m.vars = []
    · rw [if_pos (by simp [hv]), if_pos (hm.degs_eq_zero.mpr hv)]
    · rw [if_neg (by simp [hv]), if_neg (fun h => hv (hm.degs_eq_zero.mp h))]
      rfl
  | poly p =>
    have hp : p.Canon := he
    show p.constant = _
    unfold Poly.constant
    rw [poly_check hp, Go.ok_bind, Scalar.den_poly,
      coeff_lden_find (q := fun m => m.isConstant) (fun m hm => by
        rw [(hp.all m hm).degs_eq_zero]; simp [Mono.isConstant]) (lowDistinct_at hd (by simp))]
    cases p.monos.find? (fun m => m.isConstant) <;> rfl

/-- C16: equivalently, the value when all variables are zero. -/
theorem constant_value_partial {e : Scalar R} (he : e.Canon) (hd : e.LowDistinct) :
    e.constant = .ok (e.value (fun _ => 0)) := by
  rw [constant_partial he hd]
  congr 1
  unfold Scalar.value
  rw [← constantCoeff_eq, show (fun _ : ℕ => (0 : R)) = 0 from rfl]
  simp

/-- C16 for results of `Simplify`: no condition on the terms. -/
theorem constant_simplified {p q : Poly R} (hp : p.Canon) (h : p.simplify = .ok q) :
    q.constant = .ok (coeff 0 q.den) := by
  obtain ⟨q', h1, h2, -⟩ := simplify_normal_form hp
  rw [h, Except.ok.injEq] at h1
  subst h1
  exact constant_partial (e := .poly q) h2 (simplify_lowDistinct hp h)

/-- C16 is false for a polynomial that was written with two constant terms: `1 + 2`. -/
theorem constant_false : ¬ ∀ e : Scalar ℚ, e.Canon → e.constant = .ok (coeff 0 e.den) := by
  intro h
  have := h (.poly ⟨[wm0 1, wm0 2]⟩) ⟨by simp, by
    intro m hm
    simp only [List.mem_cons, List.not_mem_nil, or_false] at hm
    rcases hm with rfl | rfl <;> exact wm0_canon _⟩
  have h1 : (Scalar.poly ⟨[wm0 1, wm0 2]⟩ : Scalar ℚ).constant = .ok 1 := by decide +kernel
  rw [h1, Except.ok.injEq] at this
  simp [Mono.den, wm0_degs] at this
  norm_num [wm0] at this

/-! ## C15 -/

theorem kvar_linearCoeff (e : Scalar R) (he : e.Canon) (hk : (∃ c, e = .k c) ∨ ∃ v, e = .var v)
    {ws : List (Var R)} (hne : ws ≠ []) :
    e.linearCoeff [ws] = .ok (ws.map (fun w => coeff (Finsupp.single w.id 1) e.den)) := by
  have hne' : ws.isEmpty = false := by simpa using hne
  rcases hk with ⟨c, rfl⟩ | ⟨v, rfl⟩
  · simp only [Scalar.linearCoeff, kLinearCoeff, hne', Scalar.den_k, coeff_C]
    rw [if_neg (by simp), Go.pure_eq]
    congr 1
    rw [List.eq_replicate_iff.mpr ⟨(List.length_map ..), ?_⟩]
    · intro b hb
      obtain ⟨w, -, rfl⟩ := List.mem_map.mp hb
      rw [if_neg]; · rfl
      intro h
      have := congrArg (fun g => g w.id) h
      simp at this
  · have hv : v.OK := he
    simp only [Scalar.linearCoeff, Var.linearCoeff, hv.check, wrtOrDefault, Go.ok_bind, Go.pure_eq,
      hne', Scalar.den_var, coeff_X]
    rw [if_neg (by simp)]
    congr 1
    apply List.map_congr_left
    intro w _
    by_cases h : v.id = w.id
    · rw [if_pos h, if_pos (by rw [h])]; rfl
    · rw [if_neg h, if_neg]; · rfl
      intro h'
      exact h ((Finsupp.single_left_inj one_ne_zero).mp h')

/-- C15 for polynomials: for **every** non-empty list of valid variables, `LinearCoeff` returns the
coefficients of the first-degree terms.  Missing: polynomials in which a first-degree term is
written twice (`linearCoeff_poly_false`). -/
theorem linearCoeff_poly_partial {p : Poly R} (hp : p.Canon) (hd : (Scalar.poly p).LowDistinct)
    {ws : List (Var R)} (hne : ws ≠ []) (hok : ∀ w ∈ ws, w.OK) :
    (Scalar.poly p).linearCoeff [ws] =
      .ok (ws.map (fun w => coeff (Finsupp.single w.id 1) p.den)) := by
  have hne' : ws.isEmpty = false := by simpa using hne
  have hg : Good (fun _ => True) Set.univ (.poly p) := good_of_univ (s := .poly p) hp
  show p.linearCoeff [ws] = _
  unfold Poly.linearCoeff
  simp only [poly_check hp, wrtOrDefault, Go.ok_bind, Go.pure_eq, hne']
  rw [if_neg (by simp)]
  apply Go.mapM_eq
  intro w hw
  rw [Poly.variableIndex_ok hg.1 hg.2 (hok w hw), Go.ok_bind, Poly.den_eq]
  rw [coeff_lden_find (q := fun m => decide (m.exps = [1] ∧ m.vars.map (·.id) = [w.id]))
    (fun m hm => by rw [(hp.all m hm).degs_eq_single, decide_eq_true_eq])
    (lowDistinct_at hd (by simp))]
  rcases findIdx?_getElem? p.monos
    (fun m => decide (m.exps = [1] ∧ m.vars.map (·.id) = [w.id])) with ⟨h1, h2⟩ | ⟨i, a, h1, h2, h3⟩
  · rw [h1, h2]; rfl
  · rw [h1, h3]
    simp only [h2]

/-- C15 for results of `Simplify`: no condition on the terms or on the list. -/
theorem linearCoeff_simplified {p q : Poly R} (hp : p.Canon) (h : p.simplify = .ok q)
    {ws : List (Var R)} (hne : ws ≠ []) (hok : ∀ w ∈ ws, w.OK) :
    (Scalar.poly q).linearCoeff [ws] =
      .ok (ws.map (fun w => coeff (Finsupp.single w.id 1) q.den)) := by
  obtain ⟨q', h1, h2, -⟩ := simplify_normal_form hp
  rw [h, Except.ok.injEq] at h1
  subst h1
  exact linearCoeff_poly_partial h2 (simplify_lowDistinct hp h) hne hok

theorem linear_mono {m : Mono R} (hm : m.Canon) (hv : m.vars ≠ []) (h1 : m.exps.sum ≤ 1) :
    ∃ v, m.vars = [v] ∧ m.exps = [1] := by
  have hl := hm.len
  rcases m with ⟨c, es, vs⟩
  simp only at hv h1 hl
  have hpos : ∀ e ∈ es, 0 < e := hm.pos
  rcases vs with _ | ⟨v, _ | ⟨w, vs⟩⟩
  · exact absurd rfl hv
  · rcases es with _ | ⟨e, _ | ⟨f, es⟩⟩
    · simp at hl
    · have := hpos e (by simp)
      simp only [List.sum_cons, List.sum_nil, add_zero] at h1
      exact ⟨v, rfl, by rw [show e = 1 by omega]⟩
    · simp at hl
  · rcases es with _ | ⟨e, _ | ⟨f, es⟩⟩
    · simp at hl
    · simp at hl
    · have h2 := hpos e (by simp)
      have h3 := hpos f (by simp)
      have h4 : 0 ≤ es.sum := sum_nonneg_of_pos (fun x hx => hpos x (by simp [hx]))
      simp only [List.sum_cons] at h1
      omega

/-- C15 for monomials.  Missing: constant monomials and first-degree monomials whose variable is
not in the list, on which the code panics (`linearCoeff_mono_panics`), and lists with repeated
variables (`linearCoeff_mono_dup_false`). -/
theorem linearCoeff_mono_partial {m : Mono R} (hm : m.Canon) (hv : m.vars ≠ [])
    {ws : List (Var R)} (hne : ws ≠ []) (hnd : (ws.map (·.id)).Nodup)
    (hcov : m.exps.sum ≤ 1 → ∀ v ∈ m.vars, v.id ∈ ws.map (·.id)) :
    (Scalar.mono m).linearCoeff [ws] =
      .ok (ws.map (fun w => coeff (Finsupp.single w.id 1) m.den)) := by
  have hne' : ws.isEmpty = false := by simpa using hne
  show m.linearCoeff [ws] = _
  unfold Mono.linearCoeff
  simp only [hm.check, wrtOrDefault, Go.ok_bind, Go.pure_eq, hne', Mono.degree_ok hm.len]
  rw [if_neg (by simp)]
  have hden : ∀ w : Var R, coeff (Finsupp.single w.id 1) m.den =
      if m.exps = [1] ∧ m.vars.map (·.id) = [w.id] then m.coeff else 0 := by
    intro w
    rw [Mono.den, coeff_monomial]
    by_cases h : m.degs = Finsupp.single w.id 1
    · rw [if_pos h, if_pos ((hm.degs_eq_single w.id).mp h)]
    · rw [if_neg h, if_neg (fun hc => h ((hm.degs_eq_single w.id).mpr hc))]
  by_cases h1 : m.exps.sum ≤ 1
  · rw [if_pos h1]
    obtain ⟨v, hv1, he1⟩ := linear_mono hm hv h1
    have hmem := hcov h1 v (by rw [hv1]; simp)
    obtain ⟨i, hi⟩ := findVar_isSome hmem
    obtain ⟨u, hu, hui⟩ := findVar_some hi
    simp only [hv1, hi]
    congr 1
    apply List.ext_getElem?
    intro j
    rw [List.getElem?_set, List.getElem?_map, List.length_replicate, List.getElem?_replicate]
    have hil := findVar_lt hi
    by_cases hij : i = j
    · subst hij
      rw [if_pos rfl, if_pos hil, hu, Option.map_some, hden, if_pos]
      exact ⟨he1, by simp [hv1, hui]⟩
    · rw [if_neg hij]
      by_cases hj : j < ws.length
      · rw [if_pos hj, List.getElem?_eq_getElem hj, Option.map_some, hden, if_neg]
        · rfl
        · rintro ⟨-, h⟩
          rw [hv1] at h
          simp only [List.map_cons, List.map_nil, List.cons.injEq, and_true] at h
          apply hij
          rw [List.getElem?_eq_getElem hil, Option.some.injEq] at hu
          have hinj := (List.Nodup.getElem_inj_iff hnd (i := i) (j := j) (hi := by simpa using hil)
            (hj := by simpa using hj)).mp
          apply hinj
          simp only [List.getElem_map]
          rw [hu, hui, h]
      · rw [if_neg hj, List.getElem?_eq_none (by omega)]
        rfl
  · rw [if_neg h1]
    congr 1
    symm
    rw [List.eq_replicate_iff]
    refine ⟨by simp, ?_⟩
    intro b hb
    obtain ⟨w, -, rfl⟩ := List.mem_map.mp hb
    rw [hden, if_neg]; · rfl
    rintro ⟨h, -⟩
    rw [h] at h1
    simp at h1

/-- C15: the complete list of panics of `Monomial.LinearCoeff` on well-formed monomials and non-empty
lists: constant monomials, and first-degree monomials in a variable that is not listed.  In both
cases the right answer is a zero vector. -/
theorem linearCoeff_mono_panics {m : Mono R} (hm : m.Canon) {ws : List (Var R)} (hne : ws ≠ []) :
    (Scalar.mono m).linearCoeff [ws] = .error .index ↔
      m.vars = [] ∨ (m.exps = [1] ∧ ∀ v ∈ m.vars, v.id ∉ ws.map (·.id)) := by
  have hne' : ws.isEmpty = false := by simpa using hne
  show m.linearCoeff [ws] = _ ↔ _
  unfold Mono.linearCoeff
  simp only [hm.check, wrtOrDefault, Go.ok_bind, Go.pure_eq, hne', Mono.degree_ok hm.len]
  rw [if_neg (by simp)]
  by_cases hv : m.vars = []
  · have he : m.exps = [] := hm.exps_nil.mpr hv
    simp [hv, he, Go.throw_eq]
  · by_cases h1 : m.exps.sum ≤ 1
    · obtain ⟨v, hv1, he1⟩ := linear_mono hm hv h1
      rw [if_pos h1]
      simp only [hv1, he1, List.mem_singleton, forall_eq, true_and]
      cases h : findVar v ws with
      | none =>
        have := findVar_eq_none.mp h
        simp [Go.throw_eq]
        simpa using this
      | some i =>
        have : ¬ (v.id ∉ ws.map (·.id)) := fun hc => by
          rw [findVar_eq_none.mpr hc] at h; cases h
        simp only [reduceCtorEq, false_iff, not_or]
        exact ⟨by simp, this⟩
    · rw [if_neg h1]
      simp only [reduceCtorEq, false_iff, not_or, hv, not_false_eq_true, true_and, not_and]
      intro h
      rw [h] at h1
      simp at h1

/-- C15, all kinds, for a duplicate-free list covering the variables of the expression. -/
theorem linearCoeff_partial {e : Scalar R} (he : e.Canon) (hd : e.LowDistinct)
    (hm : ∀ m, e = .mono m → m.vars ≠ []) {ws : List (Var R)} (hne : ws ≠ [])
    (hok : ∀ w ∈ ws, w.OK) (hnd : (ws.map (·.id)).Nodup)
    (hcov : ∀ v, e.Mentions v → v.id ∈ ws.map (·.id)) :
    e.linearCoeff [ws] = .ok (ws.map (fun w => coeff (Finsupp.single w.id 1) e.den)) := by
  cases e with
  | k c => exact kvar_linearCoeff _ he (Or.inl ⟨c, rfl⟩) hne
  | var v => exact kvar_linearCoeff _ he (Or.inr ⟨v, rfl⟩) hne
  | mono m => exact linearCoeff_mono_partial he (hm m rfl) hne hnd (fun _ v hv => hcov v hv)
  | poly p => exact linearCoeff_poly_partial he hd hne hok

/-- C15: with an empty list, or without a list for an expression without variables, `LinearCoeff`
panics. -/
theorem linearCoeff_empty {e : Scalar R} (he : e.Canon) :
    e.linearCoeff [[]] = .error .linCoeffConst ∧
    (e.variables = [] → e.linearCoeff [] = .error .linCoeffConst) := by
  cases e with
  | k c => exact ⟨rfl, fun _ => rfl⟩
  | var v =>
    have hv : v.OK := he
    refine ⟨?_, by simp [Scalar.variables]⟩
    simp [Scalar.linearCoeff, Var.linearCoeff, hv.check, Go.ok_bind, wrtOrDefault, Go.pure_eq,
      Go.throw_eq]
    rfl
  | mono m =>
    have hm : m.Canon := he
    constructor
    · simp [Scalar.linearCoeff, Mono.linearCoeff, hm.check, Go.ok_bind, wrtOrDefault, Go.pure_eq,
        Go.throw_eq]
      rfl
    · intro h
      have h' : m.vars = [] := h
      simp [Scalar.linearCoeff, Mono.linearCoeff, hm.check, Go.ok_bind, wrtOrDefault, Go.pure_eq,
        Go.throw_eq, h']
      rfl
  | poly p =>
    constructor
    · simp [Scalar.linearCoeff, Poly.linearCoeff, poly_check he, Go.ok_bind, wrtOrDefault, Go.pure_eq,
        Go.throw_eq]
      rfl
    · intro h
      have h' : p.variables = [] := h
      simp [Scalar.linearCoeff, Poly.linearCoeff, poly_check he, Go.ok_bind, wrtOrDefault, Go.pure_eq,
        Go.throw_eq, h']
      rfl

/-- C15 is false for monomials: the coefficient of `y` in `2*x` is not `0` but a panic. -/
theorem linearCoeff_mono_false :
    ¬ ∀ (e : Scalar ℚ) (ws : List (Var ℚ)), e.Canon → ws ≠ [] → (∀ w ∈ ws, w.OK) →
      e.linearCoeff [ws] = .ok (ws.map (fun w => coeff (Finsupp.single w.id 1) e.den)) := by
  intro h
  have := h (.mono (wm1 2 0 1)) [wy] (wm1_canon _ _ (by decide)) (by simp) (by simp [wv_ok])
  have h1 : (Scalar.mono (wm1 2 0 1)).linearCoeff [[wy]] = .error .index := by decide +kernel
  rw [h1] at this
  cases this

/-- C15 is false for lists with a repeated variable: `LinearCoeff` of `2*x` for `[x, x]` is
`[0, 2]`. -/
theorem linearCoeff_mono_dup_false :
    ¬ ∀ (m : Mono ℚ) (ws : List (Var ℚ)), m.Canon → m.vars ≠ [] →
      (∀ v ∈ m.vars, v.id ∈ ws.map (·.id)) → ws ≠ [] →
      (Scalar.mono m).linearCoeff [ws] =
        .ok (ws.map (fun w => coeff (Finsupp.single w.id 1) m.den)) := by
  intro h
  have := h (wm1 2 0 1) [wx, wx] (wm1_canon _ _ (by decide)) (by simp [wm1])
    (by simp [wm1]) (by simp)
  have h1 : (Scalar.mono (wm1 2 0 1)).linearCoeff [[wx, wx]] = .ok [0, 2] := by decide +kernel
  rw [h1, Except.ok.injEq] at this
  simp [Mono.den, wm1_degs, coeff_monomial, wv] at this
  norm_num [wm1] at this

/-- C15 is false for a polynomial that writes a first-degree term twice: `x + 2*x`. -/
theorem linearCoeff_poly_false :
    ¬ ∀ (p : Poly ℚ) (ws : List (Var ℚ)), p.Canon → ws ≠ [] → (∀ w ∈ ws, w.OK) →
      (Scalar.poly p).linearCoeff [ws] =
        .ok (ws.map (fun w => coeff (Finsupp.single w.id 1) p.den)) := by
  intro h
  have := h ⟨[wm1 1 0 1, wm1 2 0 1]⟩ [wx] ⟨by simp, by
    intro m hm
    simp only [List.mem_cons, List.not_mem_nil, or_false] at hm
    rcases hm with rfl | rfl <;> exact wm1_canon _ _ (by decide)⟩ (by simp) (by simp [wv_ok])
  have h1 : (Scalar.poly ⟨[wm1 1 0 1, wm1 2 0 1]⟩).linearCoeff [[wx]] = .ok [1] := by decide +kernel
  rw [h1, Except.ok.injEq] at this
  simp [Poly.den, Mono.den, wm1_degs, coeff_monomial, wv] at this
  norm_num [wm1] at this

/-! ## C17 -/

/-- C17: an expression that `IsLinear` accepts is `Constant()` plus the dot product of
`LinearCoeff(ws)` with `ws`, for every duplicate-free list `ws` covering its variables.  Missing:
constant monomials (panic, `affine_reconstruction_false`) and polynomials with repeated
constant or first-degree terms. -/
theorem affine_reconstruction_partial {e : Scalar R} (he : e.Canon) (hd : e.LowDistinct)
    (hm : ∀ m, e = .mono m → m.vars ≠ []) (hlin : e.isLinear = .ok true) {ws : List (Var R)}
    (hne : ws ≠ []) (hok : ∀ w ∈ ws, w.OK) (hnd : (ws.map (·.id)).Nodup)
    (hcov : ∀ v, e.Mentions v → v.id ∈ ws.map (·.id)) :
    ∃ L c, e.linearCoeff [ws] = .ok L ∧ e.constant = .ok c ∧ L.length = ws.length ∧
      e.den = C c + ((L.zip ws).map (fun lw => C lw.1 * X lw.2.id)).sum := by
  refine ⟨_, _, linearCoeff_partial he hd hm hne hok hnd hcov, constant_partial he hd, by simp, ?_⟩
  have hvars : ∀ i ∈ e.den.vars, i ∈ ws.map (·.id) := by
    intro i hi
    obtain ⟨v, hv, rfl⟩ := List.mem_map.mp (variables_complete he hi)
    exact hcov v ((variables_nodup he).2.1 v hv)
  have := affine_eq ((isLinear_sound he).1 hlin) hnd hvars
  conv_lhs => rw [this]
  congr 2
  rw [List.map_map, List.zip_map_left, List.map_map]
  have hz : ws.zip ws = ws.map (fun w => (w, w)) := by
    clear this hcov hnd hne hok hvars
    induction ws with
    | nil => rfl
    | cons a l ih => simp [ih]
  rw [hz, List.map_map]
  rfl

/-- C17 at the level of values. -/
theorem affine_value_partial {e : Scalar R} (he : e.Canon) (hd : e.LowDistinct)
    (hm : ∀ m, e = .mono m → m.vars ≠ []) (hlin : e.isLinear = .ok true) {ws : List (Var R)}
    (hne : ws ≠ []) (hok : ∀ w ∈ ws, w.OK) (hnd : (ws.map (·.id)).Nodup)
    (hcov : ∀ v, e.Mentions v → v.id ∈ ws.map (·.id)) :
    ∃ L c, e.linearCoeff [ws] = .ok L ∧ e.constant = .ok c ∧
      ∀ ρ, e.value ρ = c + ((L.zip ws).map (fun lw => lw.1 * ρ lw.2.id)).sum := by
  obtain ⟨L, c, h1, h2, -, h4⟩ := affine_reconstruction_partial he hd hm hlin hne hok hnd hcov
  refine ⟨L, c, h1, h2, fun ρ => ?_⟩
  unfold Scalar.value
  rw [h4, map_add, map_list_sum, List.map_map]
  simp [Function.comp_def]

/-- C17 is false for constant monomials: `LinearCoeff` panics although `IsLinear` is true. -/
theorem affine_reconstruction_false :
    ¬ ∀ (e : Scalar ℚ) (ws : List (Var ℚ)), e.Canon → e.LowDistinct → e.isLinear = .ok true →
      ws ≠ [] → (∀ w ∈ ws, w.OK) → (ws.map (·.id)).Nodup →
      (∀ v, e.Mentions v → v.id ∈ ws.map (·.id)) → ∃ L, e.linearCoeff [ws] = .ok L := by
  intro h
  obtain ⟨L, hL⟩ := h (.mono (wm0 3)) [wx] (wm0_canon _) trivial (by decide +kernel) (by simp)
    (by simp [wv_ok]) (by simp) (by simp [Scalar.Mentions, wm0])
  have h1 : (Scalar.mono (wm0 3)).linearCoeff [[wx]] = .error .index := by decide +kernel
  rw [h1] at hL
  cases hL

/-- A concrete instance: `7 + 2x - 3y` is reconstructed. -/
example : (Scalar.poly ⟨[wm0 7, wm1 2 0 1, wm1 (-3) 1 1]⟩).linearCoeff [[wy, wx, wz]] =
    .ok [-3, 2, 0] := by decide +kernel
example : (Scalar.poly ⟨[wm0 7, wm1 2 0 1, wm1 (-3) 1 1]⟩ : Scalar ℚ).constant = .ok 7 := by
  decide +kernel
example : Poly.simplify (⟨[wm0 7, wm1 2 0 1, wm1 (-3) 1 1]⟩ : Poly ℚ) =
    .ok ⟨[wm0 7, wm1 2 0 1, wm1 (-3) 1 1]⟩ := by decide +kernel
example : (Scalar.poly ⟨[wm0 7, wm1 2 0 1, wm1 (-3) 1 1]⟩ : Scalar ℚ).isLinear = .ok true := by
  decide +kernel

end Verif
