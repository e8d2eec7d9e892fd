import Mathlib.Algebra.Group.Pointwise.Finset.Basic
import Mathlib.Algebra.MvPolynomial.Monad
import Verif.Lemmas.Subst
import Verif.Props.Round
import Verif.Props.RoundDeriv
import Verif.Props.RoundGrid
import Verif.Props.Program

/-!
# Rounding errors of several calls: what is kept from call to call
-/

set_option linter.unusedSectionVars false

namespace Verif

open MvPolynomial

/-! ## Bounds for the coefficients of polynomials -/

/-- The coefficients of `g` bound those of `f`. -/
def Dom (f g : MvPolynomial ℕ ℚ) : Prop := ∀ d, |coeff d f| ≤ coeff d g

theorem Dom.nonneg {f g : MvPolynomial ℕ ℚ} (h : Dom f g) (d) : 0 ≤ coeff d g := (abs_nonneg _).trans (h d)

theorem Dom.self {f g : MvPolynomial ℕ ℚ} (h : Dom f g) : Dom g g := fun d => (abs_of_nonneg (h.nonneg d)).le

theorem dom_zero : Dom 0 0 := fun d => by simp

theorem dom_C {c k : ℚ} (h : |c| ≤ k) : Dom (C c) (C k) := fun d => by
  rw [coeff_C, coeff_C]
  split
  · exact h
  · simp

theorem dom_X (i : ℕ) : Dom (X i) (X i) := fun d => by
  rw [coeff_X]
  split <;> simp

theorem Dom.add {f g f' g' : MvPolynomial ℕ ℚ} (h : Dom f g) (h' : Dom f' g') : Dom (f + f') (g + g') := fun d => by
  rw [coeff_add, coeff_add]
  exact (abs_add_le _ _).trans (add_le_add (h d) (h' d))

theorem Dom.sub {f g f' g' : MvPolynomial ℕ ℚ} (h : Dom f g) (h' : Dom f' g') : Dom (f - f') (g + g') := fun d => by
  rw [coeff_sub, coeff_add]
  exact (abs_sub _ _).trans (add_le_add (h d) (h' d))

theorem Dom.mul {f g f' g' : MvPolynomial ℕ ℚ} (h : Dom f g) (h' : Dom f' g') : Dom (f * f') (g * g') := fun d => by
  rw [coeff_mul, coeff_mul]
  refine (Finset.abs_sum_le_sum_abs _ _).trans (Finset.sum_le_sum fun x _ => ?_)
  rw [abs_mul]
  exact mul_le_mul (h _) (h' _) (abs_nonneg _) (h.nonneg _)

theorem Dom.pow {f g : MvPolynomial ℕ ℚ} (h : Dom f g) (n : ℕ) : Dom (f ^ n) (g ^ n) := by
  induction n with
  | zero =>
    rw [pow_zero, pow_zero]
    exact dom_C (k := 1) (by simp)
  | succ n ih => rw [pow_succ, pow_succ]; exact ih.mul h

theorem dom_prod {ι : Type} {f g : ι → MvPolynomial ℕ ℚ} (s : Finset ι) (h : ∀ i ∈ s, Dom (f i) (g i)) :
    Dom (∏ i ∈ s, f i) (∏ i ∈ s, g i) := by
  classical
  induction s using Finset.induction_on with
  | empty => exact dom_C (k := 1) (by simp)
  | insert a s ha ih =>
    rw [Finset.prod_insert ha, Finset.prod_insert ha]
    exact (h a (by simp)).mul (ih fun i hi => h i (by simp [hi]))

theorem dom_sum {ι : Type} {f g : ι → MvPolynomial ℕ ℚ} (s : Finset ι) (h : ∀ i ∈ s, Dom (f i) (g i)) :
    Dom (∑ i ∈ s, f i) (∑ i ∈ s, g i) := by
  classical
  induction s using Finset.induction_on with
  | empty => exact dom_zero
  | insert a s ha ih =>
    rw [Finset.sum_insert ha, Finset.sum_insert ha]
    exact (h a (by simp)).add (ih fun i hi => h i (by simp [hi]))

theorem Dom.pderiv {f g : MvPolynomial ℕ ℚ} (h : Dom f g) (i : ℕ) : Dom (pderiv i f) (pderiv i g) := fun d => by
  rw [coeff_pderiv, coeff_pderiv, abs_mul]
  have : |((d i : ℚ) + 1)| = (d i : ℚ) + 1 := abs_of_nonneg (by positivity)
  rw [this]
  exact mul_le_mul_of_nonneg_right (h _) (by positivity)

theorem bind₁_sum (φ : ℕ → MvPolynomial ℕ ℚ) (f : MvPolynomial ℕ ℚ) {s : Finset (ℕ →₀ ℕ)} (hs : f.support ⊆ s) :
    bind₁ φ f = ∑ d ∈ s, C (coeff d f) * ∏ i ∈ d.support, φ i ^ d i := by
  rw [show bind₁ φ f = eval₂ C φ f from rfl, eval₂_eq]
  refine Finset.sum_subset hs fun d _ hd => ?_
  rw [notMem_support_iff.mp hd, C_0, zero_mul]

/-- Replacing variables keeps bounds. -/
theorem Dom.bind₁ {f g : MvPolynomial ℕ ℚ} {φ γ : ℕ → MvPolynomial ℕ ℚ} (h : Dom f g) (hφ : ∀ i, Dom (φ i) (γ i)) :
    Dom (bind₁ φ f) (MvPolynomial.bind₁ γ g) := by
  classical
  rw [bind₁_sum φ f (Finset.subset_union_left (s₂ := g.support)),
    bind₁_sum γ g (Finset.subset_union_right (s₁ := f.support))]
  exact dom_sum _ fun d _ => (dom_C (h d)).mul (dom_prod _ fun i _ => (hφ i).pow _)

theorem Dom.bind₁_mul {f g : MvPolynomial ℕ ℚ} {φ γ : ℕ → MvPolynomial ℕ ℚ} {k : ℚ}
    (h : ∀ d, |coeff d f| ≤ k * coeff d g) (hφ : ∀ i, Dom (φ i) (γ i)) (d) :
    |coeff d (MvPolynomial.bind₁ φ f)| ≤ k * coeff d (MvPolynomial.bind₁ γ g) := by
  have := Dom.bind₁ (f := f) (g := C k * g) (fun d => by rw [coeff_C_mul]; exact h d) hφ d
  rwa [map_mul, bind₁_C_right, coeff_C_mul] at this

/-! ## Sums of coefficients -/

/-- The sum of the coefficients. -/
noncomputable def mass (g : MvPolynomial ℕ ℚ) : ℚ := eval (fun _ => 1) g

theorem Dom.mass_nonneg {f g : MvPolynomial ℕ ℚ} (h : Dom f g) : 0 ≤ mass g := by
  unfold mass
  rw [eval_eq]
  exact Finset.sum_nonneg fun d _ => by simpa using h.nonneg d

theorem mass_le {f g : MvPolynomial ℕ ℚ} {k : ℚ} (h : ∀ d, coeff d f ≤ k * coeff d g) : mass f ≤ k * mass g := by
  classical
  have e : ∀ q : MvPolynomial ℕ ℚ, q.support ⊆ f.support ∪ g.support →
      mass q = ∑ d ∈ f.support ∪ g.support, coeff d q := by
    intro q hq
    unfold mass
    rw [eval_eq]
    simp only [one_pow, Finset.prod_const_one, mul_one]
    exact Finset.sum_subset hq fun d _ hd => notMem_support_iff.mp hd
  rw [e f Finset.subset_union_left, e g Finset.subset_union_right, Finset.mul_sum]
  exact Finset.sum_le_sum fun d _ => h d

/-- The value at a point with coordinates up to `w`. -/
theorem eval_le_mass {f g : MvPolynomial ℕ ℚ} (h : Dom f g) {b : ℕ} (hb : g.totalDegree ≤ b) {y : ℕ → ℚ} {w : ℚ}
    (hw : 1 ≤ w) (hy : ∀ i, 0 ≤ y i ∧ y i ≤ w) : eval y g ≤ w ^ b * mass g := by
  unfold mass
  rw [eval_eq, eval_eq, Finset.mul_sum]
  refine Finset.sum_le_sum fun d hd => ?_
  simp only [one_pow, Finset.prod_const_one, mul_one]
  rw [mul_comm]
  refine mul_le_mul_of_nonneg_right ?_ (h.nonneg d)
  calc ∏ i ∈ d.support, y i ^ d i ≤ ∏ i ∈ d.support, w ^ d i :=
        Finset.prod_le_prod (fun i _ => pow_nonneg (hy i).1 _) fun i _ => pow_le_pow_left₀ (hy i).1 (hy i).2 _
    _ = w ^ (d.sum fun _ e => e) := by rw [Finset.prod_pow_eq_pow_sum]; rfl
    _ ≤ w ^ b := pow_le_pow_right₀ hw ((le_totalDegree hd).trans hb)

theorem mass_bind₁ {f g : MvPolynomial ℕ ℚ} (h : Dom f g) {b : ℕ} (hb : g.totalDegree ≤ b)
    {φ γ : ℕ → MvPolynomial ℕ ℚ} (hφ : ∀ i, Dom (φ i) (γ i)) {w : ℚ} (hw : 1 ≤ w) (hy : ∀ i, mass (γ i) ≤ w) :
    mass (bind₁ γ g) ≤ w ^ b * mass g := by
  have e : mass (bind₁ γ g) = eval (fun i => mass (γ i)) g := by
    exact eval₂Hom_bind₁ (RingHom.id ℚ) _ _ _
  rw [e]
  exact eval_le_mass h hb hw fun i => ⟨(hφ i).mass_nonneg, hy i⟩

theorem mass_pderiv {f g : MvPolynomial ℕ ℚ} (h : Dom f g) {b : ℕ} (hb : g.totalDegree ≤ b) (i : ℕ) :
    mass (pderiv i g) ≤ b * mass g := by
  unfold mass
  conv_lhs => rw [g.as_sum]
  rw [map_sum, map_sum, eval_eq, Finset.mul_sum]
  refine Finset.sum_le_sum fun d hd => ?_
  rw [pderiv_monomial, eval_monomial]
  simp only [one_pow, Finset.prod_const_one, mul_one, Finsupp.prod]
  rw [mul_comm]
  refine mul_le_mul_of_nonneg_right ?_ (h.nonneg d)
  have h1 : d i ≤ d.sum fun _ e => e := by
    by_cases hi : i ∈ d.support
    · exact Finset.single_le_sum (f := fun j => d j) (fun _ _ => Nat.zero_le _) hi
    · rw [Finsupp.notMem_support_iff.mp hi]; exact Nat.zero_le _
  exact_mod_cast h1.trans ((le_totalDegree hd).trans hb)

/-! ## What is kept -/

variable {U : Var F64 → Prop} {D D1 D2 D3 : Set (ℕ →₀ ℕ)} {q q1 q2 n n1 n2 t t1 t2 : ℕ}
variable {f g f1 g1 f2 g2 : MvPolynomial ℕ ℚ} {a b e : Scalar F64}

/-- At most `t` exponent vectors, `0` counted. -/
def Scalar.Few (t : ℕ) (e : Scalar F64) : Prop :=
  ∃ T : Finset (ℕ →₀ ℕ), T.card ≤ t ∧ 0 ∈ T ∧ e.TermsIn ↑T

/-- `e` stands for `f` up to `n` roundings, where `g` bounds the absolute values; its coefficients are multiples of
`2^-q`, and it has at most `t` exponent vectors. -/
structure Kept (U : Var F64 → Prop) (D : Set (ℕ →₀ ℕ)) (q n t : ℕ) (f g : MvPolynomial ℕ ℚ) (e : Scalar F64) :
    Prop where
  res : ∃ hq : q ≤ 1074, Res (F64.gridRounding q hq) U D n f g e
  few : e.Few t

theorem Kept.dom (h : Kept U D q n t f g e) : Dom f g := h.res.elim fun _ h => h.appr.le

theorem Kept.good (h : Kept U D q n t f g e) : Good U D e := h.res.elim fun _ h => h.good

theorem Kept.canon (h : Kept U D q n t f g e) : e.Canon := (good_iff.mp h.good).1

theorem Kept.pos (h : Kept U D q n t f g e) : 1 ≤ t := by
  obtain ⟨T, h1, h2, -⟩ := h.few
  exact (Finset.card_pos.mpr ⟨0, h2⟩).trans_le h1

theorem Kept.mono (h : Kept U D q n t f g e) {D' : Set (ℕ →₀ ℕ)} {q' n' t' : ℕ} (hD : D ⊆ D') (hq : q ≤ q')
    (hq' : q' ≤ 1074) (hn : n ≤ n') (ht : t ≤ t') : Kept U D' q' n' t' f g e := by
  obtain ⟨⟨h1, h2⟩, T, h3, h4, h5⟩ := h
  refine ⟨⟨hq', h2.good.weaken (fun _ h => h) hD, h2.tidy, fun m hm => ⟨(h2.appr.fin m hm).1,
    dyadics_mono hq (h2.appr.fin m hm).2⟩, (h2.weaken hn).appr.err, h2.appr.le, (h2.weaken hn).appr.size⟩,
    T, h3.trans ht, h4, h5⟩

theorem Kept.approx (h : Kept U D q n t f g e) : e.Approx D n f g := by
  obtain ⟨⟨h1, h2⟩, -⟩ := h
  exact approx_iff.mpr ⟨h2.good.weaken (fun _ _ => trivial) subset_rfl, h2.tidy,
    fun m hm => (h2.appr.fin m hm).1, h2.appr.err, h2.appr.le, h2.appr.size⟩

theorem few_goods (h : Good U D e) (he : e.Few t) : ∃ T : Finset (ℕ →₀ ℕ), T.card ≤ t ∧ 0 ∈ T ∧ Good U ↑T e := by
  obtain ⟨T, h1, h2, h3⟩ := he
  obtain ⟨g1, -, g2⟩ := good_iff.mp h
  exact ⟨T, h1, h2, good_iff.mpr ⟨g1, h3, g2⟩⟩

theorem Kept.goods (h : Kept U D q n t f g e) : ∃ T : Finset (ℕ →₀ ℕ), T.card ≤ t ∧ 0 ∈ T ∧ Good U ↑T e :=
  few_goods h.good h.few

theorem terms_in {T : Set (ℕ →₀ ℕ)} (h0 : 0 ∈ T) (h : Good U T e) {m : Mono F64} (hm : m ∈ e.terms) : m.degs ∈ T := by
  obtain ⟨h1, h2, -⟩ := good_iff.mp h
  have key : ∀ m : Mono F64, m.Canon → (m.vars = [] ∨ m.degs ∈ T) → m.degs ∈ T := by
    rintro m hm (h | h)
    · rw [hm.degs_eq_zero.mpr h]; exact h0
    · exact h
  cases e with
  | k c => rw [List.mem_singleton.mp hm]; exact h0
  | var v =>
    rw [List.mem_singleton.mp hm, show v.toMono.degs = Finsupp.single v.id 1 by rw [Var.toMono, Var.degs_one]; rfl]
    exact h2
  | mono m' => rw [List.mem_singleton.mp hm]; exact key _ h1 h2
  | poly p => exact key _ (h1.all m hm) (h2 m hm)

/-- The number of terms. -/
theorem Kept.length (h : Kept U D q n t f g e) (hD : D ⊆ flat) : e.terms.length ≤ t := by
  obtain ⟨T, h1, h2, h3⟩ := h.goods
  obtain ⟨hq, h⟩ := h.res
  have h4 : (e.terms.map fun m => m.degs).Nodup := List.nodup_iff_count_le_one.mpr (h.dopd hD).degs
  have h5 : (e.terms.map fun m => m.degs).toFinset ⊆ T := fun d hd => by
    obtain ⟨m, hm, rfl⟩ := List.mem_map.mp (List.mem_toFinset.mp hd)
    exact terms_in (T := ↑T) h2 h3 hm
  have := Finset.card_le_card h5
  rw [List.toFinset_card_of_nodup h4, List.length_map] at this
  exact this.trans h1

theorem fits_mass (hg : ∀ d, 0 ≤ coeff d g) (hn : n ≤ 2 ^ 52) (h : mass g ≤ 2 ^ 1022) (hq : q ≤ 1074) :
    Fits (F64.gridRounding q hq) n g := fits_of (noOverflow_of_sum hg hn h)

theorem kept_k {c : F64} (hc : c.IsFloat) (hq : q ≤ 1074) (hg : ∃ z : ℤ, c.val = z / 2 ^ q) :
    Kept U D q 0 1 (C c.val) (C |c.val|) (.k c) := by
  have e1 : vd F64.rounding (.k c) = C c.val := by rw [← Scalar.exact_vd]; rfl
  have e2 : ad F64.rounding (.k c) = C |c.val| := by rw [← Scalar.absolute_ad]; rfl
  have : Opd (F64.gridRounding q hq) U D 1 (.k c) := ⟨trivial, fun m hm => by
    rw [List.mem_singleton.mp hm]
    exact ⟨hc, by rw [F64.rounding_val]; exact mem_dyadics.mpr hg⟩, fun x => List.count_le_length⟩
  refine ⟨⟨hq, ?_⟩, {0}, by simp, by simp, trivial⟩
  rw [← e1, ← e2]
  exact this.res

theorem kept_var {v : Var F64} (hv : v.OK) (hU : U v) (hD : Finsupp.single v.id 1 ∈ D) :
    Kept U D 0 0 2 (X v.id) (X v.id) (.var v) := by
  have e1 : vd F64.rounding (.var v) = X v.id := by rw [← Scalar.exact_vd]; rfl
  have e2 : ad F64.rounding (.var v) = X v.id := by rw [← Scalar.absolute_ad]; rfl
  have : Opd (F64.gridRounding 0 (Nat.zero_le _)) U D 1 (.var v) := ⟨⟨hv, hU, hD⟩, fun m hm => by
    rw [List.mem_singleton.mp hm]
    exact (F64.gridRounding 0 (Nat.zero_le _)).one.1, fun x => List.count_le_length⟩
  refine ⟨⟨Nat.zero_le _, ?_⟩, {0, Finsupp.single v.id 1}, Finset.card_le_two, by simp, ?_⟩
  · rw [← e1]
    conv => arg 6; rw [e1, ← e2]
    exact this.res
  · show _ ∈ _
    simp

theorem Kept.plus (hD : RearrFree D) (ha : Kept U D q1 n1 t1 f1 g1 a) (hb : Kept U D q2 n2 t2 f2 g2 b)
    (hn : max n1 n2 + 1 ≤ 2 ^ 52) (hm : mass (g1 + g2) ≤ 2 ^ 1022) :
    Go.Ok (a.plus b) (Kept U D (max q1 q2) (max n1 n2 + 1) (t1 + t2) (f1 + f2) (g1 + g2)) := by
  classical
  have hq : max q1 q2 ≤ 1074 := max_le ha.res.1 hb.res.1
  have ha' := ha.mono subset_rfl (le_max_left q1 q2) hq (le_max_left n1 n2) le_rfl
  have hb' := hb.mono subset_rfl (le_max_right q1 q2) hq (le_max_right n1 n2) le_rfl
  obtain ⟨T, c1, z1, k1⟩ := ha.goods
  obtain ⟨T', c2, z2, k2⟩ := hb.goods
  obtain ⟨r, hr, h⟩ := ha'.res.2.plus hD hb'.res.2 (fits_mass (ha.dom.add hb.dom).nonneg hn hm hq)
  obtain ⟨r', hr', h'⟩ := Scalar.plus_good (k1.weaken (D' := ↑(T ∪ T')) (fun _ h => h) (by simp))
    (k2.weaken (D' := ↑(T ∪ T')) (fun _ h => h) (by simp))
  obtain rfl : r = r' := by rw [hr] at hr'; cases hr'; rfl
  exact ⟨r, hr, ⟨hq, h⟩, T ∪ T', (Finset.card_union_le _ _).trans (add_le_add c1 c2), by simp [z1],
    (good_iff.mp h').2.1⟩

theorem Kept.minus (hD : RearrFree D) (ha : Kept U D q1 n1 t1 f1 g1 a) (hb : Kept U D q2 n2 t2 f2 g2 b)
    (hn : max n1 n2 + 1 ≤ 2 ^ 52) (hm : mass (g1 + g2) ≤ 2 ^ 1022) :
    Go.Ok (a.minus b) (Kept U D (max q1 q2) (max n1 n2 + 1) (t1 + t2) (f1 - f2) (g1 + g2)) := by
  classical
  have hq : max q1 q2 ≤ 1074 := max_le ha.res.1 hb.res.1
  have ha' := ha.mono subset_rfl (le_max_left q1 q2) hq (le_max_left n1 n2) le_rfl
  have hb' := hb.mono subset_rfl (le_max_right q1 q2) hq (le_max_right n1 n2) le_rfl
  obtain ⟨T, c1, z1, k1⟩ := ha.goods
  obtain ⟨T', c2, z2, k2⟩ := hb.goods
  obtain ⟨r, hr, h⟩ := ha'.res.2.minus hD hb'.res.2 (fits_mass (ha.dom.add hb.dom).nonneg hn hm hq)
  obtain ⟨r', hr', h'⟩ := Scalar.minus_good (k1.weaken (D' := ↑(T ∪ T')) (fun _ h => h) (by simp))
    (k2.weaken (D' := ↑(T ∪ T')) (fun _ h => h) (by simp))
  obtain rfl : r = r' := by rw [hr] at hr'; cases hr'; rfl
  exact ⟨r, hr, ⟨hq, h⟩, T ∪ T', (Finset.card_union_le _ _).trans (add_le_add c1 c2), by simp [z1],
    (good_iff.mp h').2.1⟩

open Pointwise in
theorem Kept.mul (h : ProdIn D1 D2 D3) (hD : RearrFree D3) (hD1 : D1 ⊆ flat) (hD2 : D2 ⊆ flat)
    (ha : Kept U D1 q1 n1 t1 f1 g1 a) (hb : Kept U D2 q2 n2 t2 f2 g2 b) (hq : q1 + q2 ≤ 1074)
    (hn : n1 + n2 + (1 + t2) ≤ 2 ^ 52) (hm : mass (g1 * g2) ≤ 2 ^ 1022) :
    Go.Ok (a.mul b) (Kept U D3 (q1 + q2) (n1 + n2 + (1 + t2)) (t1 * t2) (f1 * f2) (g1 * g2)) := by
  classical
  have ha' := ha.mono subset_rfl (Nat.le_add_right q1 q2) hq le_rfl le_rfl
  have hb' := hb.mono subset_rfl (Nat.le_add_left q2 q1) hq le_rfl le_rfl
  obtain ⟨T, c1, z1, k1⟩ := ha.goods
  obtain ⟨T', c2, z2, k2⟩ := hb.goods
  have hM : mulRounds 1 1 a b ≤ 1 + t2 := by
    have := hb.length hD2
    unfold mulRounds
    split
    · simp only [Scalar.terms] at this; omega
    · have := hb.pos; omega
  obtain ⟨r, hr, hR⟩ := ha'.res.2.mul h hD hD1 hD2 hb'.res.2 (fun m hm x hx =>
    dyadics_mul (ha.res.2.appr.fin m hm).2 (hb.res.2.appr.fin x hx).2)
    (fits_mass (ha.dom.mul hb.dom).nonneg ((Nat.add_le_add_left hM _).trans hn) hm hq)
  have hT : ProdIn (↑T) (↑T') (↑(T + T') : Set (ℕ →₀ ℕ)) := by
    refine ⟨fun d hd => ?_, fun d hd => ?_, fun d hd d' hd' => ?_⟩
    · have := Finset.add_mem_add (s := T) hd z2
      rw [add_zero] at this; exact this
    · have := Finset.add_mem_add (t := T') z1 hd
      rw [zero_add] at this; exact this
    · exact Finset.add_mem_add hd hd'
  obtain ⟨r', hr', h'⟩ := Scalar.mul_good hT k1 k2
  obtain rfl : r = r' := by rw [hr] at hr'; cases hr'; rfl
  refine ⟨r, hr, ⟨hq, hR.weaken (Nat.add_le_add_left hM _)⟩, T + T', Finset.card_add_le.trans (Nat.mul_le_mul c1 c2), ?_,
    (good_iff.mp h').2.1⟩
  have := Finset.add_mem_add z1 z2
  rwa [add_zero] at this

theorem Kept.simp (hD : RearrFree D) (h : Kept U D q n t f g e) (hn : n ≤ 2 ^ 52) (hm : mass g ≤ 2 ^ 1022) :
    Go.Ok e.asSimplified (Kept U D q n t f g) := by
  obtain ⟨T, c1, z1, k1⟩ := h.goods
  obtain ⟨r, hr, hR⟩ := h.res.2.simp hD (fits_mass h.dom.nonneg hn hm h.res.1)
  obtain ⟨r', hr', h'⟩ := Scalar.asSimplified_good k1
  obtain rfl : r = r' := by rw [hr] at hr'; cases hr'; rfl
  exact ⟨r, hr, ⟨h.res.1, hR⟩, T, c1, z1, (good_iff.mp h').2.1⟩

theorem nsum_le_flat {k : ℕ} (h : {d | NSum D n d} ⊆ flat) (hk : k ≤ n) : {d | NSum D k d} ⊆ flat :=
  fun _ hd => h (NSum.le hd hk)

/-- `Power`. -/
theorem Kept.power (k : ℕ) (hD : {d | NSum D k d} ⊆ flat) (h : Kept U D q n t f g e) (hq : k * q ≤ 1074)
    (hn : k * (n + 1 + t) ≤ 2 ^ 52) {w : ℚ} (hw : 1 ≤ w) (hg : mass g ≤ w) (hm : w ^ k ≤ 2 ^ 1022) :
    Go.Ok (e.power k) (Kept U {d | NSum D k d} (k * q) (k * (n + 1 + t)) (t ^ k) (f ^ k) (g ^ k)) := by
  induction k with
  | zero =>
    refine ⟨.k GoNum.one, ?_, ?_⟩
    · exact Scalar.power_zero h.good.check
    · have := kept_k (U := U) (D := {d | NSum D 0 d}) (c := GoNum.one) (q := 0) F64.rounding.one.1 (Nat.zero_le _)
        ⟨1, by show (1 : ℚ) = _; simp⟩
      have e1 : (GoNum.one : F64).val = 1 := rfl
      rw [e1, abs_one, C_1] at this
      simpa using this
  | succ k ih =>
    have hk : {d | NSum D k d} ⊆ flat := nsum_le_flat hD (Nat.le_succ k)
    have hD1 : D ⊆ flat := fun d hd => hD (NSum.one hd)
    have ih := ih hk (le_trans (Nat.mul_le_mul_right _ (Nat.le_succ k)) hq)
      (le_trans (Nat.mul_le_mul_right _ (Nat.le_succ k)) hn) (le_trans (pow_le_pow_right₀ hw (Nat.le_succ k)) hm)
    rw [Scalar.power_succ h.good.check]
    refine ih.bind fun r hr => ?_
    have hP : ProdIn {d | NSum D k d} D {d | NSum D (k + 1) d} :=
      ⟨fun d hd => NSum.le hd (Nat.le_succ k), fun d hd => NSum.one hd, fun d hd d' hd' => NSum.add hd hd'⟩
    have e1 : k * (n + 1 + t) + n + (1 + t) = (k + 1) * (n + 1 + t) := by ring
    have e2 : mass (g ^ k * g) ≤ 2 ^ 1022 := by
      have : mass (g ^ k * g) = mass g ^ (k + 1) := by unfold mass; rw [map_mul, map_pow, pow_succ]
      rw [this]
      exact (pow_le_pow_left₀ h.dom.mass_nonneg hg _).trans hm
    have := hr.mul hP (rearrFree_flat.mono hD) hk hD1 h (by rw [← Nat.succ_mul]; exact hq) (by rw [e1]; exact hn) e2
    rw [e1, ← Nat.succ_mul, ← pow_succ, ← pow_succ, ← pow_succ] at this
    exact this

/-! ## `DerivativeWrt` -/

theorem Scalar.TermsIn.inter {A B : Set (ℕ →₀ ℕ)} (ha : e.TermsIn A) (hb : e.TermsIn B) : e.TermsIn (A ∩ B) := by
  cases e with
  | k c => trivial
  | var v => exact ⟨ha, hb⟩
  | mono m => exact ha.elim .inl fun h => hb.elim .inl fun h' => .inr ⟨h, h'⟩
  | poly p => exact fun m hm => (ha m hm).elim .inl fun h => (hb m hm).elim .inl fun h' => .inr ⟨h, h'⟩

/-- What the coefficients of a derivative are made of. -/
def DerivOf (l : List (Mono F64)) (c : F64) : Prop :=
  c = GoNum.zero ∨ ∃ m ∈ l, c = m.coeff ∨ ∃ z : ℤ, c = GoNum.mul m.coeff (GoNum.ofInt z)

theorem DerivOf.mono {l l' : List (Mono F64)} {c : F64} (h : DerivOf l c) (hl : ∀ m ∈ l, m ∈ l') : DerivOf l' c :=
  h.imp_right fun ⟨m, hm, h⟩ => ⟨m, hl m hm, h⟩

theorem DerivResult.coeffs {m : Mono F64} {v : Var F64} {r : Scalar F64} (h : DerivResult m v r) :
    ∀ t ∈ r.terms, DerivOf [m] t.coeff := by
  intro t ht
  cases h with
  | absent h => rw [List.mem_singleton.mp ht]; exact .inl rfl
  | linear w hv he hw => rw [List.mem_singleton.mp ht]; exact .inr ⟨m, by simp, .inl rfl⟩
  | erase d hd hv hc hdeg h1 => rw [List.mem_singleton.mp ht]; exact .inr ⟨m, by simp, .inl hc⟩
  | dec d e hd hv hc hdeg he h2 => rw [List.mem_singleton.mp ht]; exact .inr ⟨m, by simp, .inr ⟨e, hc⟩⟩

theorem derivative_coeffs {v : Var F64} {r : Scalar F64} (he : e.Canon) (hv : v.OK) (hr : e.derivative v = .ok r) :
    ∀ t ∈ r.terms, DerivOf e.terms t.coeff := by
  cases e with
  | k c =>
    cases hr
    intro t ht
    rw [List.mem_singleton.mp ht]; exact .inl rfl
  | var w =>
    have hw : w.OK := he
    simp only [Scalar.derivative, hw.check, hv.check, Go.ok_bind, Go.pure_eq] at hr
    split at hr
    · cases hr
      intro t ht
      rw [List.mem_singleton.mp ht]
      exact .inr ⟨w.toMono, by simp [Scalar.terms], .inl rfl⟩
    · cases hr
      intro t ht
      rw [List.mem_singleton.mp ht]; exact .inl rfl
  | mono m =>
    obtain ⟨r', h1, h2⟩ := Mono.derivative_ok (show m.Canon from he) hv
    obtain rfl : r = r' := by rw [show m.derivative v = .ok r from hr] at h1; cases h1; rfl
    exact h2.coeffs
  | poly p =>
    have hp : p.Canon := he
    have h3 : p.derivative v = .ok r := hr
    unfold Poly.derivative at h3
    rw [show p.check = .ok () from Good.check (s := .poly p) (good_of_univ (s := .poly p) hp), hv.check, Go.ok_bind,
      Go.ok_bind] at h3
    obtain ⟨ms, h4, h5⟩ := Go.bind_eq_ok.mp h3
    have key : Go.Ok (p.monos.foldlM (derivStep v) []) (fun ms => ∀ t ∈ ms, DerivOf p.monos t.coeff) := by
      apply Go.foldlM_ok
      · simp
      · intro acc m hm hacc
        unfold derivStep
        split
        · exact Go.ok_pure hacc
        · refine (Mono.derivative_ok (hp.all m hm) hv).bind fun r hr => ?_
          have hc := hr.coeffs
          have add : ∀ d : Mono F64, DerivOf [m] d.coeff → ∀ t ∈ acc ++ [d], DerivOf p.monos t.coeff := by
            intro d hd t ht
            rcases List.mem_append.mp ht with ht | ht
            · exact hacc t ht
            · rw [List.mem_singleton.mp ht]
              exact hd.mono fun x hx => by rw [List.mem_singleton.mp hx]; exact hm
          cases r with
          | k c =>
            dsimp only
            split
            · exact Go.ok_pure hacc
            · exact Go.ok_pure (add _ (hc _ (List.mem_singleton.mpr rfl)))
          | mono d => exact Go.ok_pure (add _ (hc _ (List.mem_singleton.mpr rfl)))
          | var w => cases hr
          | poly w => cases hr
    obtain ⟨ms', h6, h7⟩ := key
    obtain rfl : ms = ms' := by rw [h4] at h6; cases h6; rfl
    split at h5
    · cases h5
      intro t ht
      rw [List.mem_singleton.mp ht]; exact .inl rfl
    · cases h5
      exact h7

theorem derivOf_grid {l : List (Mono F64)} {c : F64} (h : DerivOf l c) (hc : c.IsFloat)
    (hl : ∀ m ∈ l, m.coeff.IsFloat ∧ F64.rounding.val m.coeff ∈ dyadics q) : F64.rounding.val c ∈ dyadics q := by
  rcases h with rfl | ⟨m, hm, rfl | ⟨z, rfl⟩⟩
  · exact (dyadics q).zero_mem
  · exact (hl m hm).2
  · obtain ⟨⟨x, hx, -⟩, h2⟩ := hl m hm
    rw [hx] at hc h2 ⊢
    obtain ⟨y, hy, -⟩ := hc
    cases hz : (GoNum.ofInt z : F64) with
    | fin w =>
      rw [hz] at hy
      rw [hy]
      show y ∈ _
      rw [F64.ofRat_val (show F64.ofRat (x * w) = .fin y from hy)]
      refine round53_grid ?_
      have hw : w ∈ dyadics 0 := by
        rw [F64.ofRat_val (show F64.ofRat (z : ℚ) = .fin w from hz)]
        exact round53_grid (dyadics_int 0 z)
      exact dyadics_mul h2 hw
    | nan => rw [hz] at hy; cases hy
    | inf s =>
      rw [hz] at hy
      change F64.mul (.fin x) (.inf s) = _ at hy
      unfold F64.mul at hy
      split at hy <;> first | contradiction | cases hy | (split at hy <;> cases hy)

/-- `DerivativeWrt`. -/
theorem Kept.derivative (hD : D ⊆ flat) (h : Kept U D q n t f g e) {v : Var F64} (hv : v.OK) {b : ℕ} (hb : b ≤ 2 ^ 53)
    (hd : e.TermsIn (degLE b)) (hn : n + 1 ≤ 2 ^ 52) (hm : mass (pderiv v.id g) ≤ 2 ^ 1022) :
    Go.Ok (e.derivative v) (Kept U (derivFamily v.id D) q (n + 1) t (pderiv v.id f) (pderiv v.id g)) := by
  classical
  obtain ⟨T, c1, z1, k1⟩ := h.few
  have hA := h.approx
  have hA' : e.Approx (D ∩ ↑T) n f g := ⟨hA.canon, hA.terms.inter k1, hA.floats, hA.alike, hA.err, hA.le, hA.size⟩
  obtain ⟨r, hr, hR⟩ := approx_derivative (fun d hd => hD hd.1) hA' hv (fun m hm => by
      have := terms_in (T := degLE b) (by simp [degLE]) (good_of hA.canon hd) hm
      refine le_trans (le_trans ?_ (show (m.degs.sum fun _ e => e) ≤ b from this)) hb
      by_cases hi : v.id ∈ m.degs.support
      · exact Finset.single_le_sum (f := fun j => m.degs j) (fun _ _ => Nat.zero_le _) hi
      · rw [Finsupp.notMem_support_iff.mp hi]; exact Nat.zero_le _)
    (noOverflow_of_sum (h.dom.pderiv v.id).nonneg (Nat.le_of_succ_le hn) hm)
  obtain ⟨r', hr', -, hM⟩ := derivative_total hA.canon hv
  obtain rfl : r = r' := by rw [hr] at hr'; cases hr'; rfl
  have hR' := approx_iff.mp hR
  have hg : Good U (derivFamily v.id D) r := good_iff.mpr ⟨hR.canon, hR.terms.mono fun d hd => hd.1,
    fun w hw => (good_iff.mp h.good).2.2 w (hM w hw)⟩
  refine ⟨r, hr, ⟨h.res.1, hg, hR'.tidy, fun m hm => ⟨hR'.appr.fin m hm, ?_⟩, hR'.appr.err, hR'.appr.le,
    hR'.appr.size⟩, T.image (· - Finsupp.single v.id 1), Finset.card_image_le.trans c1, ?_, hR.terms.mono fun d hd => ?_⟩
  · exact derivOf_grid (derivative_coeffs hA.canon hv hr m hm) (hR.floats m hm) fun x hx =>
      ⟨hA.floats x hx, (h.res.2.appr.fin x hx).2⟩
  · exact Finset.mem_image.mpr ⟨0, z1, by simp⟩
  · exact Finset.mem_coe.mpr (Finset.mem_image.mpr ⟨_, hd.2, by simp⟩)

/-! ## `Substitute` and `SubstituteAccordingTo` -/

/-- The sum of the exponents. -/
def expSum (l : List (Var F64 × Int)) : ℕ := (l.map fun ve => ve.2.toNat).sum

theorem expSum_append (l l' : List (Var F64 × Int)) : expSum (l ++ l') = expSum l + expSum l' := by
  simp [expSum]

theorem mass_powers {φ γ : ℕ → MvPolynomial ℕ ℚ} (hφ : ∀ i, Dom (φ i) (γ i)) {w : ℚ} (hy : ∀ i, mass (γ i) ≤ w)
    (hw : 1 ≤ w) (l : List (Var F64 × Int)) :
    0 ≤ mass (l.map fun ve => γ ve.1.id ^ ve.2.toNat).prod ∧
      mass (l.map fun ve => γ ve.1.id ^ ve.2.toNat).prod ≤ w ^ expSum l := by
  induction l with
  | nil => simp [mass, expSum]
  | cons ve l ih =>
    have e1 : mass ((ve :: l).map fun ve => γ ve.1.id ^ ve.2.toNat).prod =
        mass (γ ve.1.id) ^ ve.2.toNat * mass (l.map fun ve => γ ve.1.id ^ ve.2.toNat).prod := by
      simp [mass]
    have e2 : expSum (ve :: l) = ve.2.toNat + expSum l := by simp [expSum]
    have h0 := (hφ ve.1.id).mass_nonneg
    rw [e1, e2, pow_add]
    exact ⟨mul_nonneg (pow_nonneg h0 _) ih.1, mul_le_mul (pow_le_pow_left₀ h0 (hy _) _) ih.2 ih.1
      (pow_nonneg (zero_le_one.trans hw) _)⟩

/-- The conditions under which replacing variables in terms of degree at most `B` with coefficients that are multiples of
`2^-qa` and sum up to at most `M` stays in range. -/
structure SubRange (qa qs ns S B : ℕ) (w M : ℚ) (φ γ : ℕ → MvPolynomial ℕ ℚ) : Prop where
  dom : ∀ i, Dom (φ i) (γ i)
  one : 1 ≤ w
  mass : ∀ i, mass (γ i) ≤ w
  two : 2 ≤ S
  grid : qa + B * qs ≤ 1074
  rounds : B * (ns + 2 + S + S ^ B) ≤ 2 ^ 52
  unit : 1 ≤ M
  size : M * w ^ B ≤ 2 ^ 1022

variable {qa qs ns S B : ℕ} {w M : ℚ} {φ γ : ℕ → MvPolynomial ℕ ℚ} {T : ℕ → Set (ℕ →₀ ℕ)}
variable {F : Var F64 → Go (Scalar F64)}

theorem SubRange.pow_le (h : SubRange qa qs ns S B w M φ γ) {k : ℕ} (hk : k ≤ B) : w ^ k ≤ 2 ^ 1022 :=
  (pow_le_pow_right₀ h.one hk).trans (le_trans (le_mul_of_one_le_left (pow_nonneg (zero_le_one.trans h.one) _) h.unit) h.size)

theorem step_arith {E e B ns S : ℕ} (he : 1 ≤ e) (hB : E + e ≤ B) (hS : 1 ≤ S) :
    E * (ns + 2 + S + S ^ B) + e * (ns + 1 + S) + (1 + S ^ e) ≤ (E + e) * (ns + 2 + S + S ^ B) := by
  have h1 : S ^ e ≤ S ^ B := Nat.pow_le_pow_right hS (by omega)
  have h2 : 1 + S ^ B ≤ e * (1 + S ^ B) := Nat.le_mul_of_pos_left _ he
  nlinarith

theorem subFold_kept {m : Mono F64} (hm : m.Canon) (hR : SubRange qa qs ns S B w M φ γ)
    (hf : ∀ v ∈ m.vars, Go.Ok (F v) (Kept U (T v.id) qs ns S (φ v.id) (γ v.id)))
    (hD : PSet T (m.vars.zip m.exps) ⊆ flat) (hc : m.coeff.IsFloat) (hg : ∃ z : ℤ, m.coeff.val = z / 2 ^ qa)
    (hB : expSum (m.vars.zip m.exps) ≤ B) (hM : |m.coeff.val| ≤ M) :
    Go.Ok ((m.vars.zip m.exps).foldlM (subStep F) (.k m.coeff))
      (Kept U (PSet T (m.vars.zip m.exps)) (qa + expSum (m.vars.zip m.exps) * qs)
        (expSum (m.vars.zip m.exps) * (ns + 2 + S + S ^ B)) (S ^ expSum (m.vars.zip m.exps))
        (C m.coeff.val * ((m.vars.zip m.exps).map fun ve => φ ve.1.id ^ ve.2.toNat).prod)
        (C |m.coeff.val| * ((m.vars.zip m.exps).map fun ve => γ ve.1.id ^ ve.2.toNat).prod)) := by
  have hS : 1 ≤ S := le_trans (by norm_num) hR.two
  have grid : ∀ k ≤ B, qa + k * qs ≤ 1074 := fun k hk =>
    (Nat.add_le_add_left (Nat.mul_le_mul_right _ hk) _).trans hR.grid
  have rounds : ∀ k ≤ B, k * (ns + 2 + S + S ^ B) ≤ 2 ^ 52 := fun k hk =>
    (Nat.mul_le_mul_right _ hk).trans hR.rounds
  apply Go.foldlM_ok' (subStep F) (fun pre => Kept U (PSet T pre) (qa + expSum pre * qs)
    (expSum pre * (ns + 2 + S + S ^ B)) (S ^ expSum pre)
    (C m.coeff.val * (pre.map fun ve => φ ve.1.id ^ ve.2.toNat).prod)
    (C |m.coeff.val| * (pre.map fun ve => γ ve.1.id ^ ve.2.toNat).prod))
  · have := kept_k (U := U) (D := PSet T ([] : List (Var F64 × Int))) hc (q := qa) (by have := grid 0 (Nat.zero_le _); omega) hg
    simpa [expSum] using this
  · rintro pre ⟨v, e⟩ acc ⟨post, hpost⟩ hacc
    have hve : (v, e) ∈ m.vars.zip m.exps := by rw [hpost]; simp
    have he : 0 < e := hm.pos e (List.of_mem_zip hve).2
    have he1 : 1 ≤ e.toNat := by omega
    have hsum : expSum (pre ++ [(v, e)]) = expSum pre + e.toNat := by rw [expSum_append]; simp [expSum]
    have hEB : expSum pre + e.toNat ≤ B := by
      refine le_trans ?_ hB
      rw [← hsum, hpost, show pre ++ (v, e) :: post = (pre ++ [(v, e)]) ++ post by simp, expSum_append (pre ++ [(v, e)]) post]
      exact Nat.le_add_right _ _
    have hD' : PSet T (pre ++ [(v, e)]) ⊆ flat := by
      refine subset_trans ?_ hD
      rw [hpost, show pre ++ (v, e) :: post = (pre ++ [(v, e)]) ++ post by simp]
      exact PSet_left _ _ _
    have hN : {d | NSum (T v.id) e.toNat d} ⊆ flat :=
      ((nsum_PSet T (v, e)).trans (PSet_right _ _ _)).trans hD'
    have hpre : PSet T pre ⊆ flat := (PSet_left _ _ _).trans hD'
    have ha := step_arith (ns := ns) he1 hEB hS
    have hr := rounds _ hEB
    unfold subStep
    refine (hf v (List.of_mem_zip hve).1).bind fun s hs => ?_
    have hp := hs.power e.toNat hN (by have := grid _ hEB; nlinarith)
      ((Nat.le_add_left _ _).trans ((Nat.le_add_right _ _).trans (ha.trans hr))) hR.one (hR.mass _)
      (hR.pow_le (by omega))
    rw [Int.toNat_of_nonneg he.le] at hp
    refine hp.bind fun pw hpw => ?_
    have hmass := mass_powers hR.dom hR.mass hR.one (pre ++ [(v, e)])
    have eg : C |m.coeff.val| * (pre.map fun ve => γ ve.1.id ^ ve.2.toNat).prod * γ v.id ^ e.toNat =
        C |m.coeff.val| * ((pre ++ [(v, e)]).map fun ve => γ ve.1.id ^ ve.2.toNat).prod := by
      rw [List.map_append, List.prod_append]; simp [mul_assoc]
    have ef : C m.coeff.val * (pre.map fun ve => φ ve.1.id ^ ve.2.toNat).prod * φ v.id ^ e.toNat =
        C m.coeff.val * ((pre ++ [(v, e)]).map fun ve => φ ve.1.id ^ ve.2.toNat).prod := by
      rw [List.map_append, List.prod_append]; simp [mul_assoc]
    have hq' : qa + expSum pre * qs + e.toNat * qs = qa + expSum (pre ++ [(v, e)]) * qs := by rw [hsum]; ring
    have hm' : Verif.mass (C |m.coeff.val| * ((pre ++ [(v, e)]).map fun ve => γ ve.1.id ^ ve.2.toNat).prod) ≤
        2 ^ 1022 := by
      have : Verif.mass (C |m.coeff.val| * ((pre ++ [(v, e)]).map fun ve => γ ve.1.id ^ ve.2.toNat).prod) =
          |m.coeff.val| * Verif.mass (((pre ++ [(v, e)]).map fun ve => γ ve.1.id ^ ve.2.toNat).prod) := by
        unfold Verif.mass; rw [map_mul, eval_C]
      rw [this]
      refine le_trans (mul_le_mul hM (hmass.2.trans ?_) hmass.1 (zero_le_one.trans hR.unit)) hR.size
      exact pow_le_pow_right₀ hR.one (by rw [hsum]; exact hEB)
    have key := hacc.mul (prodIn_PSet T pre (v, e)) (rearrFree_flat.mono hD') hpre hN hpw
      (by rw [hq', hsum]; exact grid _ hEB) (ha.trans hr) (by rw [eg]; exact hm')
    rw [eg, ef, hq'] at key
    refine key.mono fun r hr' => hr'.mono subset_rfl le_rfl hr'.res.1 (by rw [hsum]; exact ha) ?_
    rw [hsum, pow_add]

theorem bind₁_vterm (m : Mono F64) (c : ℚ) : bind₁ φ (monomial m.degs c) =
    C c * ((m.vars.zip m.exps).map fun ve => φ ve.1.id ^ ve.2.toNat).prod := by
  have := bind₁_mono φ (⟨c, m.exps, m.vars.map Var.exact⟩ : Mono ℚ)
  have e1 : (⟨c, m.exps, m.vars.map Var.exact⟩ : Mono ℚ).den = monomial m.degs c := by
    unfold Mono.den Mono.degs
    simp only [List.zip_map_left, List.map_map]
    rfl
  rw [e1] at this
  rw [this, List.zip_map_left, List.map_map]
  rfl

theorem expSum_eq (m : Mono F64) : expSum (m.vars.zip m.exps) = m.degs.sum fun _ e => e := by
  have e1 : m.degs = ((m.vars.zip m.exps).map fun ve => Finsupp.single ve.1.id ve.2.toNat).sum := rfl
  rw [e1]
  generalize m.vars.zip m.exps = l
  induction l with
  | nil => simp [expSum]
  | cons ve l ih =>
    rw [List.map_cons, List.sum_cons, degree_add, ← ih, Finsupp.sum_single_index rfl]
    simp [expSum]

theorem dom_term (m : Mono F64) : Dom (vterm F64.rounding m) (aterm F64.rounding m) := fun d => by
  unfold vterm aterm
  rw [coeff_monomial, coeff_monomial]
  split <;> simp

theorem dom_terms (l : List (Mono F64)) : Dom (vden F64.rounding l) (aden F64.rounding l) := fun d => vden_le_aden l d

theorem mass_aden_mono (hφ : ∀ i, Dom (φ i) (γ i)) (l l' : List (Mono F64)) :
    mass (bind₁ γ (aden F64.rounding l)) ≤ mass (bind₁ γ (aden F64.rounding (l ++ l'))) := by
  rw [aden_append, map_add]
  have := ((dom_terms l').bind₁ hφ).mass_nonneg
  unfold mass at this ⊢
  rw [map_add]
  exact le_add_of_nonneg_right this

/-- The sum of the terms after replacement. -/
theorem sumFold_kept {l : List (Mono F64)} {G : Mono F64 → Go (Scalar F64)} (hD : RearrFree D)
    (hφ : ∀ i, Dom (φ i) (γ i)) (hq : q ≤ 1074)
    (hg : ∀ m ∈ l, Go.Ok (G m) (Kept U D q n t (bind₁ φ (vterm F64.rounding m)) (bind₁ γ (aterm F64.rounding m))))
    (hn : n + l.length ≤ 2 ^ 52) (hm : mass (bind₁ γ (aden F64.rounding l)) ≤ 2 ^ 1022) :
    Go.Ok (l.foldlM (fun acc m => do
      let t ← G m
      acc.plus t) (Scalar.k GoNum.zero)) (Kept U D q (n + l.length) (1 + l.length * t)
        (bind₁ φ (vden F64.rounding l)) (bind₁ γ (aden F64.rounding l))) := by
  apply Go.foldlM_ok' _ (fun pre => Kept U D q (n + pre.length) (1 + pre.length * t)
        (bind₁ φ (vden F64.rounding pre)) (bind₁ γ (aden F64.rounding pre)))
  · have := kept_k (U := U) (D := D) (c := GoNum.zero) (q := q) F64.rounding.zero.1 hq ⟨0, by show (0 : ℚ) = _; simp⟩
    have e1 : (GoNum.zero : F64).val = 0 := rfl
    rw [e1, abs_zero, C_0] at this
    simpa using this.mono subset_rfl le_rfl hq (Nat.zero_le n) (le_refl 1)
  · rintro pre m acc ⟨post, hpost⟩ hacc
    refine (hg m (by rw [hpost]; simp)).bind fun r hr => ?_
    have e1 : max (n + pre.length) n + 1 = n + (pre ++ [m]).length := by simp; omega
    have e2 : bind₁ γ (aden F64.rounding pre) + bind₁ γ (aterm F64.rounding m) =
        bind₁ γ (aden F64.rounding (pre ++ [m])) := by
      rw [aden_append, map_add, aden_cons, map_add]; simp
    have e3 : bind₁ φ (vden F64.rounding pre) + bind₁ φ (vterm F64.rounding m) =
        bind₁ φ (vden F64.rounding (pre ++ [m])) := by
      rw [vden_append, map_add, vden_cons, map_add]; simp
    have hl : (pre ++ [m]).length ≤ l.length := by rw [hpost]; simp
    have := hacc.plus hD hr (by rw [e1]; omega) (by
      rw [e2]
      refine le_trans ?_ hm
      rw [hpost, show pre ++ m :: post = (pre ++ [m]) ++ post by simp]
      exact mass_aden_mono hφ _ _)
    rw [e1, e2, e3, max_self] at this
    refine this.mono fun x hx => hx.mono subset_rfl le_rfl hq le_rfl ?_
    simp only [List.length_append, List.length_cons, List.length_nil]
    rw [add_mul]; omega

theorem degree_aden {l : List (Mono F64)} (h : ∀ m ∈ l, m.degs ∈ degLE B) : (aden F64.rounding l).totalDegree ≤ B := by
  induction l with
  | nil => simp
  | cons m l ih =>
    rw [aden_cons]
    refine (totalDegree_add _ _).trans (max_le ?_ (ih fun x hx => h x (by simp [hx])))
    exact (totalDegree_monomial_le _ _).trans (h m (by simp))

theorem two_pow_rounds (hn : n ≤ 2 ^ 52) : ((1 + 1 / 2 ^ 53) ^ n : ℚ) ≤ 2 := by
  have h3 := roundings_bound hn
  have h4 : (n : ℚ) / 2 ^ 52 ≤ 1 := by
    rw [div_le_one (by norm_num)]; exact_mod_cast hn
  linarith

/-- The approximation of an approximation, after replacing variables. -/
theorem Kept.compose {A : Set (ℕ →₀ ℕ)} {fa ga : MvPolynomial ℕ ℚ} {na ta : ℕ} {r : Scalar F64}
    (ha : Kept U A qa na ta fa ga e) (hφ : ∀ i, Dom (φ i) (γ i))
    (h : Kept U D q n t (bind₁ φ (vd F64.rounding e)) (bind₁ γ (ad F64.rounding e)) r) :
    Kept U D q (na + n) t (bind₁ φ fa) (bind₁ γ ga) r := by
  obtain ⟨hq, h1⟩ := h.res
  have h2 := ha.res.2
  refine ⟨⟨hq, h1.good, h1.tidy, h1.appr.trans (n := na) (fun d => ?_) (ha.dom.bind₁ hφ) fun d => ?_⟩, h.few⟩
  · rw [← coeff_sub, ← map_sub]
    exact Dom.bind₁_mul (fun d => by rw [coeff_sub]; exact h2.appr.err d) hφ d
  · refine (le_abs_self _).trans (Dom.bind₁_mul (fun d => ?_) (fun i => (hφ i).self) d)
    rw [abs_of_nonneg (aden_nonneg _ d)]
    exact h2.appr.size d

theorem Kept.mass_ad {A : Set (ℕ →₀ ℕ)} (ha : Kept U A q n t f g e) (hn : n ≤ 2 ^ 52) :
    mass (ad F64.rounding e) ≤ 2 * mass g := by
  have h2 := ha.res.2
  refine (mass_le h2.appr.size).trans (mul_le_mul_of_nonneg_right (two_pow_rounds hn) ha.dom.mass_nonneg)

theorem coeff_le_mass {m : Mono F64} (hm : m ∈ e.terms) : |m.coeff.val| ≤ mass (ad F64.rounding e) := by
  have h1 := abs_le_aden (F := F64.rounding) hm
  rw [F64.rounding_val] at h1
  refine h1.trans ?_
  have hd := (dom_terms e.terms).nonneg
  unfold mass
  rw [eval_eq]
  simp only [one_pow, Finset.prod_const_one, mul_one]
  by_cases h : m.degs ∈ (aden F64.rounding e.terms).support
  · exact Finset.single_le_sum (f := fun d => coeff d (aden F64.rounding e.terms)) (fun x _ => hd x) h
  · rw [notMem_support_iff.mp h]
    exact Finset.sum_nonneg fun x _ => hd x

/-- What is needed of the operand and of the replacements. -/
structure SubCase (U : Var F64 → Prop) (A D : Set (ℕ →₀ ℕ)) (T : ℕ → Set (ℕ →₀ ℕ)) (qa na ta : ℕ)
    (fa ga : MvPolynomial ℕ ℚ) (e : Scalar F64) (qs ns S B : ℕ) (w M : ℚ) (φ γ : ℕ → MvPolynomial ℕ ℚ)
    (F : Var F64 → Go (Scalar F64)) : Prop where
  kept : Kept U A qa na ta fa ga e
  nodeA : Node A
  nodeD : Node D
  deg : e.TermsIn (degLE B)
  range : SubRange qa qs ns S B w M φ γ
  rounds : na + (B * (ns + 2 + S + S ^ B) + ta) ≤ 2 ^ 52
  sum : 2 * Verif.mass ga ≤ M
  vars : ∀ v, v.OK → U v → Go.Ok (F v) (Kept U (T v.id) qs ns S (φ v.id) (γ v.id))
  terms : ∀ d ∈ A, SubstTerms T d ⊆ D

section
variable {A : Set (ℕ →₀ ℕ)} {fa ga : MvPolynomial ℕ ℚ} {na ta : ℕ}

theorem SubCase.mass_ad (h : SubCase U A D T qa na ta fa ga e qs ns S B w M φ γ F) : mass (ad F64.rounding e) ≤ M :=
  (h.kept.mass_ad (by have := h.rounds; omega)).trans h.sum

theorem SubCase.mem (h : SubCase U A D T qa na ta fa ga e qs ns S B w M φ γ F) {m : Mono F64} (hm : m ∈ e.terms) :
    m.coeff.IsFloat ∧ (∃ z : ℤ, m.coeff.val = z / 2 ^ qa) ∧ expSum (m.vars.zip m.exps) ≤ B ∧ |m.coeff.val| ≤ M ∧
      SubstTerms T m.degs ⊆ D := by
  obtain ⟨h1, h2⟩ := h.kept.res.2.appr.fin m hm
  rw [F64.rounding_val] at h2
  refine ⟨h1, mem_dyadics.mp h2, ?_, (coeff_le_mass hm).trans h.mass_ad,
    h.terms _ (terms_in h.nodeA.zero h.kept.good hm)⟩
  rw [expSum_eq]
  exact terms_in (T := degLE B) (by simp [degLE]) (good_of h.kept.canon h.deg) hm

theorem SubCase.fold (h : SubCase U A D T qa na ta fa ga e qs ns S B w M φ γ F) {m : Mono F64} (hm : m ∈ e.terms)
    (hc : m.Canon) (hv : ∀ v ∈ m.vars, U v) :
    Go.Ok ((m.vars.zip m.exps).foldlM (subStep F) (.k m.coeff)) (Kept U D (qa + B * qs) (B * (ns + 2 + S + S ^ B)) (S ^ B)
      (bind₁ φ (vterm F64.rounding m)) (bind₁ γ (aterm F64.rounding m))) := by
  obtain ⟨h1, h2, h3, h4, h5⟩ := h.mem hm
  have hP := (PSet_subst T hc).trans h5
  have := subFold_kept hc h.range (fun v hv' => h.vars v (hc.ok v hv') (hv v hv')) (hP.trans h.nodeD.flat) h1 h2 h3 h4
  have e1 : bind₁ φ (vterm F64.rounding m) = _ := bind₁_vterm m (F64.rounding.val m.coeff)
  have e2 : bind₁ γ (aterm F64.rounding m) = _ := bind₁_vterm m |F64.rounding.val m.coeff|
  rw [F64.rounding_val] at e1 e2
  rw [e1, e2]
  exact this.mono fun r hr => hr.mono hP (Nat.add_le_add_left (Nat.mul_le_mul_right _ h3) _) h.range.grid
    (Nat.mul_le_mul_right _ h3) (Nat.pow_le_pow_right (le_trans (by norm_num) h.range.two) h3)

/-- A term without variables to be replaced. -/
theorem SubCase.same (h : SubCase U A D T qa na ta fa ga e qs ns S B w M φ γ F) {m : Mono F64} (hm : m ∈ e.terms)
    (hc : m.Canon) (hv : ∀ v ∈ m.vars, U v ∧ φ v.id = X v.id ∧ γ v.id = X v.id ∧ Finsupp.single v.id 1 ∈ T v.id) :
    Kept U D (qa + B * qs) (B * (ns + 2 + S + S ^ B)) (S ^ B)
      (bind₁ φ (vterm F64.rounding m)) (bind₁ γ (aterm F64.rounding m)) (.mono m) := by
  obtain ⟨h1, h2, h3, h4, h5⟩ := h.mem hm
  have hP := (PSet_subst T hc).trans h5
  have e3 : ∀ ψ : ℕ → MvPolynomial ℕ ℚ, (∀ v ∈ m.vars, ψ v.id = X v.id) → ∀ c : ℚ,
      bind₁ ψ (monomial m.degs c) = monomial m.degs c := by
    intro ψ hψ c
    have e4 := bind₁_vterm (φ := X) m c
    rw [bind₁_X_left, AlgHom.id_apply] at e4
    rw [bind₁_vterm]
    conv_rhs => rw [e4]
    congr 2
    refine List.map_congr_left fun ve hve => ?_
    rw [hψ ve.1 (List.of_mem_zip hve).1]
  have e1 : bind₁ φ (vterm F64.rounding m) = vd F64.rounding (.mono m) := by
    rw [vterm, e3 φ fun v hv' => (hv v hv').2.1]
    simp [vd, Scalar.terms, vterm]
  have e2 : bind₁ γ (aterm F64.rounding m) = ad F64.rounding (.mono m) := by
    rw [aterm, e3 γ fun v hv' => (hv v hv').2.2.1]
    simp [ad, Scalar.terms, aterm]
  have hd : m.degs ∈ D := hP (degs_mem_PSet fun v hv' => (hv v hv').2.2.2)
  have hqa : qa ≤ 1074 := h.kept.res.1
  have : Opd (F64.gridRounding qa hqa) U D 1 (.mono m) := ⟨⟨hc, fun v hv' => (hv v hv').1, .inr hd⟩, fun x hx => by
    rw [List.mem_singleton.mp hx]; exact h.kept.res.2.appr.fin m hm, fun x => List.count_le_length⟩
  have k : Kept U D qa 0 (S ^ B) (bind₁ φ (vterm F64.rounding m)) (bind₁ γ (aterm F64.rounding m)) (.mono m) := by
    refine ⟨⟨hqa, ?_⟩, {0, m.degs}, ?_, by simp, ?_⟩
    · rw [e1, e2]; exact this.res
    · rcases Nat.eq_zero_or_pos B with rfl | hB
      · have : m.degs = 0 := by
          rw [expSum_eq] at h3
          ext i
          by_contra hi
          have : m.degs i ≤ m.degs.sum fun _ e => e :=
            Finset.single_le_sum (f := fun j => m.degs j) (fun _ _ => Nat.zero_le _) (Finsupp.mem_support_iff.mpr hi)
          simp at hi
          omega
        rw [this]; simp
      · refine Finset.card_le_two.trans (h.range.two.trans ?_)
        exact Nat.le_self_pow (by omega) S
    · right; simp
  exact k.mono subset_rfl (Nat.le_add_right _ _) h.range.grid (Nat.zero_le _) le_rfl

theorem SubCase.bound (h : SubCase U A D T qa na ta fa ga e qs ns S B w M φ γ F) :
    mass (bind₁ γ (ad F64.rounding e)) ≤ 2 ^ 1022 := by
  have hdeg : (ad F64.rounding e).totalDegree ≤ B := degree_aden fun m hm =>
    terms_in (T := degLE B) (by simp [degLE]) (good_of h.kept.canon h.deg) hm
  refine (mass_bind₁ (dom_terms e.terms) hdeg h.range.dom h.range.one h.range.mass).trans ?_
  rw [mul_comm]
  exact (mul_le_mul_of_nonneg_right h.mass_ad (pow_nonneg (zero_le_one.trans h.range.one) _)).trans h.range.size

/-- Everything about the cases of the operand. -/
theorem SubCase.result (h : SubCase U A D T qa na ta fa ga e qs ns S B w M φ γ F) {sub : Go (Scalar F64)}
    {G : Mono F64 → Go (Scalar F64)}
    (hG : ∀ m ∈ e.terms, m.Canon → (∀ v ∈ m.vars, U v) → Go.Ok (G m) (Kept U D (qa + B * qs) (B * (ns + 2 + S + S ^ B))
      (S ^ B) (bind₁ φ (vterm F64.rounding m)) (bind₁ γ (aterm F64.rounding m))))
    (hsub : match e with
      | .k c => sub = .ok (.k c)
      | .var v => sub = F v
      | .mono m => sub = G m
      | .poly p => ∃ last : Scalar F64 → Go (Scalar F64), (last = pure ∨ last = Scalar.asSimplified) ∧
          sub = p.monos.foldlM (fun acc m => do
            let t ← G m
            acc.plus t) (Scalar.k GoNum.zero) >>= last) :
    Go.Ok sub (Kept U D (qa + B * qs) (na + (B * (ns + 2 + S + S ^ B) + ta)) (1 + ta * S ^ B) (bind₁ φ fa) (bind₁ γ ga)) := by
  have hS : 1 ≤ S := le_trans (by norm_num) h.range.two
  have hta : 1 ≤ ta := h.kept.pos
  have hSB : 1 ≤ S ^ B := Nat.one_le_pow _ _ hS
  have hlen := h.kept.length h.nodeA.flat
  have key : Go.Ok sub (Kept U D (qa + B * qs) (B * (ns + 2 + S + S ^ B) + ta) (1 + ta * S ^ B)
      (bind₁ φ (vd F64.rounding e)) (bind₁ γ (ad F64.rounding e))) := by
    have up : ∀ {q' n' t' r}, q' ≤ qa + B * qs → n' ≤ B * (ns + 2 + S + S ^ B) + ta → t' ≤ 1 + ta * S ^ B →
        Kept U D q' n' t' (bind₁ φ (vd F64.rounding e)) (bind₁ γ (ad F64.rounding e)) r →
        Kept U D (qa + B * qs) (B * (ns + 2 + S + S ^ B) + ta) (1 + ta * S ^ B)
          (bind₁ φ (vd F64.rounding e)) (bind₁ γ (ad F64.rounding e)) r :=
      fun h1 h2 h3 hk => hk.mono subset_rfl h1 h.range.grid h2 h3
    have hone : S ^ B ≤ 1 + ta * S ^ B := le_trans (Nat.le_mul_of_pos_left _ hta) (Nat.le_add_left _ _)
    cases e with
    | k c =>
      refine ⟨_, hsub, up (Nat.le_add_right _ _) (Nat.zero_le _) (Nat.le_add_right 1 _) ?_⟩
      have e1 : vd F64.rounding (.k c) = C c.val := by rw [← Scalar.exact_vd]; rfl
      have e2 : ad F64.rounding (.k c) = C |c.val| := by rw [← Scalar.absolute_ad]; rfl
      obtain ⟨h1, h2, -⟩ := h.mem (m := kToMono c) (by simp [Scalar.terms])
      rw [e1, e2, bind₁_C_right, bind₁_C_right]
      exact kept_k h1 h.kept.res.1 h2
    | var v =>
      have hv := h.kept.good
      have hd := h.deg
      have hB : 1 ≤ B := by
        have : ((Finsupp.single v.id 1).sum fun _ e => e) ≤ B := hd
        rwa [Finsupp.sum_single_index rfl] at this
      have e1 : vd F64.rounding (.var v) = X v.id := by rw [← Scalar.exact_vd]; rfl
      have e2 : ad F64.rounding (.var v) = X v.id := by rw [← Scalar.absolute_ad]; rfl
      rw [show sub = F v from hsub]
      refine (h.vars v hv.1 hv.2.1).mono fun r hr => up (q' := qs) (n' := ns) (t' := S) ?_ ?_ ?_ ?_
      · exact le_trans (Nat.le_mul_of_pos_left _ hB) (Nat.le_add_left _ _)
      · refine le_trans (le_trans ?_ (Nat.le_mul_of_pos_left _ hB)) (Nat.le_add_right _ _)
        omega
      · exact le_trans (Nat.le_self_pow (by omega) S) hone
      · rw [e1, e2, bind₁_X_right, bind₁_X_right]
        refine hr.mono (fun d hd => ?_) le_rfl hr.res.1 le_rfl le_rfl
        refine h.terms _ hv.2.2 ⟨fun _ => d, fun i hi => ?_, ?_⟩
        · rw [Finsupp.support_single _ one_ne_zero, Finset.mem_singleton] at hi
          subst hi
          exact ⟨[d], by simp, by simpa using hd, by simp⟩
        · rw [Finsupp.support_single _ one_ne_zero, Finset.sum_singleton]
    | mono m =>
      have hm := h.kept.good
      rw [show sub = G m from hsub]
      refine (hG m (by simp [Scalar.terms]) hm.canon hm.vars).mono fun r hr => up le_rfl (Nat.le_add_right _ _) hone ?_
      simpa [vd, ad, Scalar.terms] using hr
    | poly p =>
      have hp := h.kept.good
      obtain ⟨last, hl, rfl⟩ := hsub
      have hl' : p.monos.length ≤ ta := hlen
      have hb := h.bound
      have hr0 := h.rounds
      have := sumFold_kept (l := p.monos) h.nodeD.free h.range.dom h.range.grid
        (fun m hm => hG m hm (hp.2 m hm).canon (hp.2 m hm).vars) (by omega) hb
      have this := this.mono fun r hr => hr.mono (n' := B * (ns + 2 + S + S ^ B) + ta) (t' := 1 + ta * S ^ B) subset_rfl
        le_rfl h.range.grid (Nat.add_le_add_left hl' _)
        (Nat.add_le_add_left (Nat.mul_le_mul_right _ hl') _)
      refine this.bind fun r hr => ?_
      rcases hl with rfl | rfl
      · exact Go.ok_pure hr
      · exact hr.simp h.nodeD.free (by omega) hb
  exact key.mono fun r hr => h.kept.compose h.range.dom hr

end

end Verif
