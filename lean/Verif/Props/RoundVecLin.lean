import Verif.Lemmas.Sharp
import Verif.Lemmas.RoundArr
import Verif.Props.RoundLin
import Verif.Props.VecLinear

/-!
# C72 for vector constraints: rounding errors of their linear representations

The vector methods first subtract the constants of the right side from it, then subtract the result from the left
side.  On `float64` the first subtraction changes no first-degree coefficient, so the rows of the returned matrix
are as good as those of scalar constraints: one rounding.
-/

set_option linter.unusedSectionVars false

namespace Verif

open MvPolynomial

/-! ## Specification -/

/-- Row `i` of a vector constraint. -/
def VCon.row (c : VCon F64) (i : ℕ) : SCon F64 :=
  ⟨(Expr.v c.lhs).entryD i 0, (Expr.v c.rhs).entryD i 0, c.sense⟩

/-- A linear vector constraint of `n` rows between floats. -/
structure VCon.LinearFloats (c : VCon F64) (n : ℕ) : Prop where
  rows : 2 ≤ n
  canon : (Con.v c).Canon
  lshape : (Expr.v c.lhs).Shape n 1
  rshape : (Expr.v c.rhs).Shape n 1
  each : ∀ i < n, (c.row i).LinearFloats

/-- Some variable does not cancel, not even after one rounding.  Rows without variables panic
(`vec_linearIneq_constant_panics`). -/
def SCon.Kept (c : SCon F64) : Prop := ∃ v : ℕ,
  1 / 2 ^ 53 * (coeff (Finsupp.single v 1) c.lhs.exact.absolute.den +
      coeff (Finsupp.single v 1) c.rhs.exact.absolute.den) <
    |coeff (Finsupp.single v 1) c.lhs.exact.den - coeff (Finsupp.single v 1) c.rhs.exact.den|

/-- The subtractions of the sides do not overflow; the constant of the right side is subtracted from itself. -/
def SCon.Subtracts (c : SCon F64) : Prop :=
  NoOverflow 2 (c.lhs.exact.absolute.den + (c.rhs.exact.absolute.den + C |coeff 0 c.rhs.exact.den|))

/-- The rows and numbers stand for the rows of the constraint. -/
def VCon.RowsOf (c : VCon F64) (n : ℕ) (σ : ℚ) (ws : List (Var F64)) (A : List (List F64)) (b : List F64) : Prop :=
  A.length = n ∧ b.length = n ∧ ∀ i row x, A[i]? = some row → b[i]? = some x → (c.row i).RowOf σ ws row x

/-! ## Reading vectors -/

section Read
variable {R : Type} [GoNum R] {n : ℕ}

theorem vec_constant_map {a : Vec R} {g : Scalar R → R} (hn : 0 < n) (hc : a.check = .ok ())
    (hl : a.entries.length = n) (h : ∀ x ∈ a.entries, x.constant = .ok (g x)) :
    a.constant = .ok (a.entries.map g) := by
  have hne : ∀ l : List R, l.length = n → newVecDense l = .ok l := by
    intro l hl
    unfold newVecDense
    rw [if_neg (by rintro rfl; simp at hl; omega)]
    rfl
  cases a with
  | k l =>
    simp only [Vec.entries, List.length_map] at hl
    show newVecDense l = _
    rw [hne l hl, Vec.entries, List.map_map]
    congr 1
    refine (List.map_id l).symm.trans (List.map_congr_left fun c hc => ?_)
    exact Except.ok.inj (h (.k c) (List.mem_map.mpr ⟨c, hc, rfl⟩))
  | v l =>
    simp only [Vec.entries, List.length_map] at hl
    show newVecDense _ = _
    rw [hne _ (by simpa using hl), Vec.entries, List.map_map]
    congr 1
    refine List.map_congr_left fun v hv => ?_
    exact Except.ok.inj (h (.var v) (List.mem_map.mpr ⟨v, hv, rfl⟩))
  | m l =>
    show (do Vec.check (.m l); _ : Go (List R)) = _
    rw [hc, Go.ok_bind, Go.pure_eq, Vec.entries, List.map_map]
    congr 1
    refine List.map_congr_left fun m hm => ?_
    exact Except.ok.inj (h (.mono m) (List.mem_map.mpr ⟨m, hm, rfl⟩))
  | p l =>
    show (do Vec.check (.p l); _ : Go (List R)) = _
    rw [hc, Go.ok_bind, mapM_eq (g := fun p => g (.poly p)), Vec.entries, List.map_map]
    · rfl
    · exact fun p hp => h (.poly p) (List.mem_map.mpr ⟨p, hp, rfl⟩)

theorem entries_range {a : Vec R} (hs : (Expr.v a).Shape n 1) :
    a.entries = (List.range n).map fun i => (Expr.v a).entryD i 0 := by
  have h := hs.grid_eq
  simp only [Expr.grid, List.range_one, List.map_cons, List.map_nil] at h
  have h2 : (List.range n).map (fun i => [(Expr.v a).entryD i 0]) =
      ((List.range n).map fun i => (Expr.v a).entryD i 0).map (fun x => [x]) := by
    rw [List.map_map]
    rfl
  rw [h2] at h
  exact List.map_injective_iff.mpr (fun x y hxy => by simpa using hxy) h

theorem vec_linearCoeff_map {a : Vec R} {ws : List (Var R)} {g : ℕ → List R} (hn : 0 < n) (he : (Expr.v a).Canon)
    (hs : (Expr.v a).Shape n 1) (hne : ws ≠ [])
    (h : ∀ i < n, ((Expr.v a).entryD i 0).linearCoeff [ws] = .ok (g i)) :
    a.linearCoeff [ws] = .ok ((List.range n).map g) := by
  unfold Vec.linearCoeff
  rw [show a.check = .ok () from Expr.check_ok he hs hn, Go.ok_bind]
  simp only [Go.pure_eq, Go.ok_bind, List.isEmpty_iff, hne, if_false, Vec.len_ok he hs hn,
    show n ≠ 0 by omega]
  refine mapM_eq _ fun i hi => ?_
  rw [Vec.atVec_entryD he hs (List.mem_range.mp hi), Go.ok_bind]
  exact h i (List.mem_range.mp hi)

theorem vec_isLinear {a : Vec R} (hn : 0 < n) (he : (Expr.v a).Canon) (hs : (Expr.v a).Shape n 1)
    (h : ∀ x ∈ a.entries, ∃ d, x.degree = .ok d ∧ d ≤ 1) : (Expr.v a).isLinear = .ok true := by
  have hc : a.check = .ok () := Expr.check_ok he hs hn
  have hloop : ∀ {α : Type} (f : α → Go Int) (l : List α), (∀ x ∈ l, ∃ d, f x = .ok d ∧ d ≤ 1) →
      ∃ d, maxDegreeLoop f l = .ok d ∧ d ≤ 1 := by
    intro α f l hl
    obtain ⟨d, h1, -, h3⟩ := maxDegreeLoop_ok (f := f) (l := l) (N := fun x n => ∀ d, f x = .ok d → d ≤ n)
      (fun x hx => by
        obtain ⟨d, h1, -⟩ := hl x hx
        refine ⟨d, h1, fun n => ⟨fun h d' hd' => ?_, fun h => h d h1⟩⟩
        rw [h1, Except.ok.injEq] at hd'
        exact hd' ▸ h)
    refine ⟨d, h1, ?_⟩
    have := (h3 1).mpr fun x hx d' hd' => by
      obtain ⟨d, h1, h2⟩ := hl x hx
      rw [h1, Except.ok.injEq] at hd'
      rw [← hd']
      exact_mod_cast h2
    exact_mod_cast this
  have key : ∃ d, (Expr.v a).degree = .ok d ∧ d ≤ 1 := by
    cases a with
    | k l => exact ⟨0, rfl, by decide⟩
    | v l => exact ⟨1, rfl, by decide⟩
    | m l =>
      obtain ⟨d, h1, h2⟩ := hloop Mono.degree l fun m hm => h (.mono m) (List.mem_map.mpr ⟨m, hm, rfl⟩)
      refine ⟨d, ?_, h2⟩
      show (do Vec.check (.m l); _ : Go Int) = _
      rw [hc]
      exact h1
    | p l =>
      obtain ⟨d, h1, h2⟩ := hloop Poly.degree l fun m hm => h (.poly m) (List.mem_map.mpr ⟨m, hm, rfl⟩)
      refine ⟨d, ?_, h2⟩
      show (do Vec.check (.p l); _ : Go Int) = _
      rw [hc]
      exact h1
  obtain ⟨d, h1, h2⟩ := key
  unfold Expr.isLinear
  rw [h1]
  show Except.ok (decide (d ≤ 1)) = _
  rw [decide_eq_true h2]

end Read

/-! ## The difference of two vectors, with roundings -/

section Minus
variable {R K : Type} [GoNum R] [Field K] [LinearOrder K] [IsStrictOrderedRing K]
variable {F : RoundModel R K} {P : Var R → Prop} {D : Set (ℕ →₀ ℕ)} {n : ℕ}

theorem stable_res (hD : RearrFree D) {k : ℕ} {f g : MvPolynomial ℕ K} (hG : Fits F k g) :
    Stable (Res F P D k f g) where
  check _ h := h.good.check
  poly s h := by
    refine ⟨good_toPoly h.good, ?_, ?_⟩ <;> rw [terms_toPoly]
    exacts [h.tidy, h.appr]
  mono s m h hm := by
    refine ⟨good_toMono h.good hm, ?_, ?_⟩ <;> rw [terms_toMono hm]
    exacts [h.tidy, h.appr]
  simp _ h := h.simp hD hG

theorem res_self {s : Scalar R} (h : Opd F P D 1 s) : Res F P D 0 (vd F s) (ad F s) s :=
  ⟨h.good, keysLe_one.mp h.keys, appr_self h.fin⟩

theorem res_neg (hD : RearrFree D) {k : ℕ} {f g : MvPolynomial ℕ K} {s : Scalar R} (h : Res F P D k f g s)
    (hG : Fits F k g) : Go.Ok (s.mul (.k negOne)) (Res F P D k (-f) g) := by
  refine (Scalar.mulNeg_appr hD h.opd (fits_of_le (n := k) (k := 0) (aden_nonneg _) h.appr.size hG)).mono
    fun r hr => ⟨hr.good, hr.tidy, ?_⟩
  refine hr.appr.trans (n := k) (k := 0) (fun e => ?_) (fun e => ?_) h.appr.size
  · rw [coeff_neg, coeff_neg, neg_sub_neg, abs_sub_comm]
    exact h.appr.err e
  · rw [coeff_neg, abs_neg]
    exact h.appr.le e

theorem vec_minus_res {a b : Vec R} (hD : RearrFree D) (hn : 2 ≤ n) {k : ℕ} {f g f' g' : ℕ → MvPolynomial ℕ K}
    (ha : VArr n (fun i => Res F P D k (f i) (g i)) a) (hb : VArr n (fun i => Res F P D k (f' i) (g' i)) b)
    (hG : ∀ i < n, Fits F (k + 1) (g i + g' i)) (hg : ∀ i < n, ∀ d, 0 ≤ coeff d (g i))
    (hg' : ∀ i < n, ∀ d, 0 ≤ coeff d (g' i)) :
    ∃ d, (Expr.v a).minus (.v b) = .ok (.v d) ∧
      VArr n (fun i => Res F P D (k + 1) (f i - f' i) (g i + g' i)) d := by
  have hG' : ∀ i < n, Fits F k (g' i) := fun i hi =>
    (hG i hi).le (by omega) (hg' i hi) fun d => by
      rw [coeff_add]
      exact le_add_of_nonneg_left (hg i hi d)
  have h := Vec.minus_vec_ok (T := fun i => Res F P D k (-f' i) (g' i))
    (Q := fun i => Res F P D (k + 1) (f i + -f' i) (g i + g' i)) (by omega) ha
    (fun _ _ h => h.good.check) hb (fun _ _ h => h.good.check) (fun i hi => stable_res hD (hG' i hi))
    (fun i hi => stable_res hD (hG i hi)) (fun i x hi hx => res_neg hD hx (hG' i hi))
    (fun i x y hi hx hy => hx.plus hD hy (hG i hi))
  obtain ⟨e, h1, h2, -, h3⟩ := h
  obtain ⟨d, rfl⟩ := h3 (by omega)
  refine ⟨d, h1, ?_⟩
  simp only [sub_eq_add_neg]
  exact earr_v_iff.mp h2

theorem varr_entry {a : Vec R} {Q : ℕ → Scalar R → Prop} (h : VArr n Q a) {i : ℕ} (hi : i < n) :
    Q i ((Expr.v a).entryD i 0) := by
  have hE : EArr n 1 (fun i _ => Q i) (.v a) := earr_v_iff.mpr h
  obtain ⟨x, hx, hx'⟩ := hE.get hi (j := 0) (by decide)
  unfold Expr.entryD
  rw [hx]
  exact hx'

theorem varr_of {a : Vec R} {Q : ℕ → Scalar R → Prop} (hs : (Expr.v a).Shape n 1)
    (h : ∀ i < n, Q i ((Expr.v a).entryD i 0)) : VArr n Q a := by
  have h1 : EArr n 1 (fun i _ => Q i) (.v a) := (EArr.self hs).mono fun i j x hi hj hx => by
    obtain rfl : j = 0 := by omega
    have := h i hi
    unfold Expr.entryD at this
    rw [hx] at this
    exact this
  exact earr_v_iff.mp h1

end Minus

/-! ## Sizes of the coefficients -/

/-- With no exponent vector twice, the absolute value of a coefficient is the coefficient of the absolute values. -/
theorem coeff_absolute {e : Scalar F64} (h1 : e.Repeats 1) (d : ℕ →₀ ℕ) :
    coeff d e.exact.absolute.den = |coeff d e.exact.den| := by
  rw [Scalar.exact_vd, Scalar.absolute_ad]
  have key : ∀ l : List (Mono F64), (l.map fun m => m.degs).count d ≤ 1 →
      coeff d (aden F64.rounding l) = |coeff d (vden F64.rounding l)| ∧
        ((l.map fun m => m.degs).count d = 0 → coeff d (vden F64.rounding l) = 0) := by
    intro l
    induction l with
    | nil => exact fun _ => ⟨by simp, fun _ => by simp⟩
    | cons m l ih =>
      intro hc
      rw [List.map_cons, List.count_cons] at hc ⊢
      obtain ⟨i1, i2⟩ := ih (by omega)
      rw [vden_cons, aden_cons, coeff_add, coeff_add, vterm, aterm, coeff_monomial, coeff_monomial, i1]
      by_cases hm : m.degs = d
      · rw [if_pos (by simpa using hm)] at hc
        rw [if_pos (by simpa using hm), if_pos (by simpa using hm), i2 (by omega), add_zero, abs_zero, add_zero]
        exact ⟨rfl, fun h => absurd h (by simp [hm])⟩
      · rw [if_neg (by simpa using hm)] at hc ⊢
        rw [if_neg hm, zero_add, zero_add]
        refine ⟨rfl, fun h => i2 ?_⟩
        simpa [hm] using h
  exact (key _ (h1 d)).1

theorem fits_sharp {n : ℕ} {g : MvPolynomial ℕ ℚ} (h : NoOverflow n g) : Fits F64.sharp n g := by
  intro d
  show |(1 + 1 / (2 ^ 53 + 1)) ^ n * coeff d g| ≤ (2 : ℚ) ^ 1023
  rw [abs_mul, abs_of_nonneg (by positivity)]
  refine le_trans (mul_le_mul_of_nonneg_right ?_ (abs_nonneg _)) (h d)
  exact pow_le_pow_left₀ (by positivity) (by norm_num) n

theorem NoOverflow.less {n k : ℕ} {g h : MvPolynomial ℕ ℚ} (hG : NoOverflow k h) (hn : n ≤ k)
    (hg : ∀ d, 0 ≤ coeff d g) (hle : ∀ d, coeff d g ≤ coeff d h) : NoOverflow n g := by
  intro d
  refine le_trans ?_ (hG d)
  rw [abs_of_nonneg (hg d), abs_of_nonneg ((hg d).trans (hle d))]
  have e1 : (1 : ℚ) ≤ 1 + 1 / 2 ^ 53 := by norm_num
  exact mul_le_mul (pow_le_pow_right₀ e1 hn) (hle d) (hg d) (pow_nonneg (zero_le_one.trans e1) _)

theorem coeff_single_ne (v : ℕ) : Finsupp.single v 1 ≠ 0 := by simp

/-- Subtracting a constant from a linear expression changes no first-degree coefficient. -/
theorem sharp_keeps {P : Var F64 → Prop} {r x : Scalar F64} {q : ℚ} (fr : r.Floats) (hr : r.Repeats 1)
    (h : Res F64.sharp P (degLE 1) 1 (vd F64.sharp r - vd F64.sharp (.k (.fin q)))
      (ad F64.sharp r + ad F64.sharp (.k (.fin q))) x) (v : ℕ) :
    coeff (Finsupp.single v 1) x.exact.den = coeff (Finsupp.single v 1) r.exact.den := by
  have hx : x.Repeats 1 := (h.dopd degLE_one_flat).degs
  have fx : x.Floats := h.appr.fin
  have e1 := h.appr.err (Finsupp.single v 1)
  have e2 : vd F64.sharp (.k (.fin q)) = C q := by
    rw [show vd F64.sharp (.k (.fin q)) = vd F64.rounding (.k (.fin q)) from rfl, ← Scalar.exact_vd]
    rfl
  have e3 : ad F64.sharp (.k (.fin q)) = C |q| := by
    rw [show ad F64.sharp (.k (.fin q)) = ad F64.rounding (.k (.fin q)) from rfl, ← Scalar.absolute_ad]
    rfl
  have e4 : F64.sharp.u = 1 / (2 ^ 53 + 1) := rfl
  rw [e2, e3, coeff_sub, coeff_add, coeff_C, coeff_C, if_neg (coeff_single_ne v).symm,
    if_neg (coeff_single_ne v).symm, sub_zero, add_zero, pow_one, add_sub_cancel_left, e4,
    show vd F64.sharp r = vd F64.rounding r from rfl, show ad F64.sharp r = ad F64.rounding r from rfl,
    show vden F64.sharp x.terms = vd F64.rounding x from rfl, ← Scalar.exact_vd, ← Scalar.exact_vd,
    ← Scalar.absolute_ad, coeff_absolute hr] at e1
  rcases eq_or_ne (coeff (Finsupp.single v 1) r.exact.den) 0 with h0 | h0
  · rw [h0, abs_zero, mul_zero, sub_zero] at e1
    rw [h0]
    exact abs_eq_zero.mp (le_antisymm e1 (abs_nonneg _))
  · refine F64.able_gap (Scalar.coeff_able fx hx _) (Scalar.coeff_able fr hr _) (e1.trans_lt ?_)
    exact mul_lt_mul_of_pos_right (by norm_num) (abs_pos.mpr h0)

/-! ## The representations -/

variable {c : VCon F64} {n : ℕ} {ws : List (Var F64)}

/-- The variables of some row. -/
def VCon.Names (c : VCon F64) (n : ℕ) (v : Var F64) : Prop := ∃ i < n, (c.row i).Mentions v

theorem VCon.LinearFloats.opds (h : c.LinearFloats n) {i : ℕ} (hi : i < n) :
    DOpd F64.rounding (c.Names n) (degLE 1) 1 (c.row i).lhs ∧
    DOpd F64.rounding (c.Names n) (degLE 1) 1 (c.row i).rhs := by
  have hr := h.each i hi
  exact ⟨⟨good_mentions hr.canon.lhs hr.terms.lhs fun v hv => ⟨i, hi, Or.inl hv⟩, hr.lfloats, hr.lonce⟩,
    ⟨good_mentions hr.canon.rhs hr.terms.rhs fun v hv => ⟨i, hi, Or.inr hv⟩, hr.rfloats, hr.ronce⟩⟩

theorem VCon.LinearFloats.constants (h : c.LinearFloats n) :
    c.lhs.constant = .ok ((List.range n).map fun i => .fin (coeff 0 (c.row i).lhs.exact.den)) ∧
    c.rhs.constant = .ok ((List.range n).map fun i => .fin (coeff 0 (c.row i).rhs.exact.den)) := by
  have hn : 0 < n := by have := h.rows; omega
  have key : ∀ a : Vec F64, (Expr.v a).Canon → (Expr.v a).Shape n 1 →
      (∀ i < n, ((Expr.v a).entryD i 0).constant = .ok (.fin (coeff 0 ((Expr.v a).entryD i 0).exact.den))) →
      a.constant = .ok ((List.range n).map fun i => .fin (coeff 0 ((Expr.v a).entryD i 0).exact.den)) := by
    intro a ca sa ha
    have he := entries_range sa
    rw [vec_constant_map (g := fun x => .fin (coeff 0 x.exact.den)) hn (Expr.check_ok ca sa hn)
      (by rw [he]; simp), he, List.map_map]
    · rfl
    · intro x hx
      rw [he] at hx
      obtain ⟨i, hi, rfl⟩ := List.mem_map.mp hx
      exact ha i (List.mem_range.mp hi)
  refine ⟨key _ h.canon.left h.lshape fun i hi => ?_, key _ h.canon.right h.rshape fun i hi => ?_⟩
  · have hr := h.each i hi
    exact constant_read hr.canon.lhs hr.lfloats hr.lonce fun v hv => hr.bounds v (Or.inl hv)
  · have hr := h.each i hi
    exact constant_read hr.canon.rhs hr.rfloats hr.ronce fun v hv => hr.bounds v (Or.inr hv)

theorem VCon.LinearFloats.required (h : c.LinearFloats n) : (Con.v c).requireLinear = .ok () := by
  have hn : 0 < n := by have := h.rows; omega
  have deg : ∀ e : Scalar F64, e.Canon → e.TermsIn (degLE 1) → e.Floats → (∀ v, e.Mentions v → v.BoundsOK) →
      ∃ d, e.degree = .ok d ∧ d ≤ 1 := by
    intro e ce te fe be
    have h1 := (constant_degree_float64 (fe.within be)).2
    obtain ⟨d, h2, h3⟩ := Scalar.degree_le_iff (Scalar.exact_canon be ce) (n := 1)
    exact ⟨d, h1.trans h2, by exact_mod_cast h3.mpr (Scalar.exact_terms te)⟩
  have hl : (Expr.v c.lhs).isLinear = .ok true := vec_isLinear hn h.canon.left h.lshape fun x hx => by
    rw [entries_range h.lshape] at hx
    obtain ⟨i, hi, rfl⟩ := List.mem_map.mp hx
    have hr := h.each i (List.mem_range.mp hi)
    exact deg _ hr.canon.lhs hr.terms.lhs hr.lfloats fun v hv => hr.bounds v (Or.inl hv)
  have hr : (Expr.v c.rhs).isLinear = .ok true := vec_isLinear hn h.canon.right h.rshape fun x hx => by
    rw [entries_range h.rshape] at hx
    obtain ⟨i, hi, rfl⟩ := List.mem_map.mp hx
    have hr := h.each i (List.mem_range.mp hi)
    exact deg _ hr.canon.rhs hr.terms.rhs hr.rfloats fun v hv => hr.bounds v (Or.inr hv)
  unfold Con.requireLinear Con.isLinear
  show (Expr.isLinear (.v c.rhs) >>= fun b => if b = true then Expr.isLinear (.v c.lhs) else pure false) >>= _ = _
  rw [hr, Go.ok_bind, if_pos rfl, hl]
  rfl

theorem SCon.Subtracts.one {c : SCon F64} (h : c.Subtracts) :
    NoOverflow 1 (c.lhs.exact.absolute.den + c.rhs.exact.absolute.den) := by
  refine NoOverflow.less h (by norm_num) (fun d => ?_) fun d => ?_
  · rw [coeff_add]
    exact add_nonneg (absolute_coeff_nonneg _ d) (absolute_coeff_nonneg _ d)
  · rw [coeff_add, coeff_add, coeff_add, coeff_C]
    have : (0 : ℚ) ≤ if 0 = d then |coeff 0 c.rhs.exact.den| else 0 := by split <;> positivity
    linarith

/-- The difference that the methods compute. -/
theorem VCon.LinearFloats.diff (h : c.LinearFloats n) (hG : ∀ i < n, (c.row i).Subtracts) :
    ∃ d, c.newLHS = .ok d ∧ (Expr.v d).Canon ∧ (Expr.v d).Shape n 1 ∧
      ∀ i < n, Good (c.Names n) (degLE 1) ((Expr.v d).entryD i 0) ∧ ((Expr.v d).entryD i 0).Floats ∧
        ((Expr.v d).entryD i 0).Repeats 1 ∧ ∀ v,
        |coeff (Finsupp.single v 1) ((Expr.v d).entryD i 0).exact.den -
          (coeff (Finsupp.single v 1) (c.row i).lhs.exact.den - coeff (Finsupp.single v 1) (c.row i).rhs.exact.den)| ≤
        1 / 2 ^ 53 * (coeff (Finsupp.single v 1) (c.row i).lhs.exact.absolute.den +
          coeff (Finsupp.single v 1) (c.row i).rhs.exact.absolute.den) := by
  obtain ⟨-, k2⟩ := h.constants
  have nn : ∀ (F : RoundModel F64 ℚ) (s : Scalar F64) (d : ℕ →₀ ℕ), 0 ≤ coeff d (ad F s) := fun F s d =>
    aden_nonneg _ d
  -- right side minus its constants
  have ar : VArr n (fun i => Res F64.sharp (c.Names n) (degLE 1) 0 (vd F64.sharp (c.row i).rhs)
      (ad F64.sharp (c.row i).rhs)) c.rhs := varr_of h.rshape fun i hi => by
    have := (h.opds hi).2
    exact res_self ⟨this.good, this.fin, this.degs.keys⟩
  have ak : VArr n (fun i => Res F64.sharp (c.Names n) (degLE 1) 0
      (vd F64.sharp (.k (.fin (coeff 0 (c.row i).rhs.exact.den))))
      (ad F64.sharp (.k (.fin (coeff 0 (c.row i).rhs.exact.den)))))
      (.k ((List.range n).map fun i => .fin (coeff 0 (c.row i).rhs.exact.den))) := by
    refine LArr.map_iff.mpr (LArr.map_iff.mpr ((LArr.range n).mono fun i a hi ha => ?_))
    obtain rfl : a = i := by first | exact ha | exact ha.symm
    have hr := h.each a hi
    exact res_self (opd_k ⟨_, rfl, Scalar.coeff_able hr.rfloats hr.ronce 0⟩)
  have ek : ∀ q : ℚ, ad F64.sharp (.k (.fin q)) = C |q| := by
    intro q
    rw [show ad F64.sharp (.k (.fin q)) = ad F64.rounding (.k (.fin q)) from rfl, ← Scalar.absolute_ad]
    rfl
  have g1 : ∀ i < n, Fits F64.sharp (0 + 1) (ad F64.sharp (c.row i).rhs +
      ad F64.sharp (.k (.fin (coeff 0 (c.row i).rhs.exact.den)))) := by
    intro i hi
    refine fits_sharp (NoOverflow.less (hG i hi) (by norm_num) (fun d => ?_) fun d => ?_)
    · rw [coeff_add]
      exact add_nonneg (nn _ _ d) (nn _ _ d)
    · rw [ek, show ad F64.sharp (c.row i).rhs = ad F64.rounding (c.row i).rhs from rfl, ← Scalar.absolute_ad,
        coeff_add _ (c.row i).lhs.exact.absolute.den]
      exact le_add_of_nonneg_left (absolute_coeff_nonneg _ d)
  obtain ⟨e, h1, h2⟩ := vec_minus_res rearrFree_degLE_one h.rows ar ak g1 (fun i _ => nn _ _) (fun i _ => nn _ _)
  have se : (Expr.v e).Shape n 1 := EArr.shape (Q := fun i _ => Res F64.sharp (c.Names n) (degLE 1) (0 + 1)
    (vd F64.sharp (c.row i).rhs - vd F64.sharp (.k (.fin (coeff 0 (c.row i).rhs.exact.den))))
    (ad F64.sharp (c.row i).rhs + ad F64.sharp (.k (.fin (coeff 0 (c.row i).rhs.exact.den))))) (earr_v_iff.mpr h2)
  -- left side minus that
  have al : VArr n (fun i => Res F64.rounding (c.Names n) (degLE 1) 0 (vd F64.rounding (c.row i).lhs)
      (ad F64.rounding (c.row i).lhs)) c.lhs := varr_of h.lshape fun i hi => res_self (h.opds hi).1.opd
  have ae : VArr n (fun i => Res F64.rounding (c.Names n) (degLE 1) 0 (vd F64.rounding ((Expr.v e).entryD i 0))
      (ad F64.rounding ((Expr.v e).entryD i 0))) e := varr_of se fun i hi => by
    have := varr_entry h2 hi
    exact res_self ⟨this.good, this.appr.fin, this.tidy.keysLe⟩
  have g2 : ∀ i < n, Fits F64.rounding (0 + 1) (ad F64.rounding (c.row i).lhs +
      ad F64.rounding ((Expr.v e).entryD i 0)) := by
    intro i hi
    refine fits_of_le (n := 1) (k := 0 + 1) (h := (c.row i).lhs.exact.absolute.den +
      ((c.row i).rhs.exact.absolute.den + C |coeff 0 (c.row i).rhs.exact.den|))
      (coeff_add_nonneg (nn _ _) (nn _ _)) (fun d => ?_) (fits_of (hG i hi))
    have e1 := (varr_entry h2 hi).appr.size d
    have e4 : F64.sharp.u = 1 / (2 ^ 53 + 1) := rfl
    have e5 : F64.rounding.u = 1 / 2 ^ 53 := rfl
    rw [ek, show ad F64.sharp (c.row i).rhs = ad F64.rounding (c.row i).rhs from rfl,
      show aden F64.sharp ((Expr.v e).entryD i 0).terms = ad F64.rounding ((Expr.v e).entryD i 0) from rfl,
      ← Scalar.absolute_ad, ← Scalar.absolute_ad, zero_add, pow_one, e4] at e1
    rw [e5, pow_one, coeff_add, coeff_add _ (c.row i).lhs.exact.absolute.den, mul_add, ← Scalar.absolute_ad,
      ← Scalar.absolute_ad]
    have e6 := absolute_coeff_nonneg (c.row i).lhs d
    have e7 : 0 ≤ coeff d ((c.row i).rhs.exact.absolute.den + C |coeff 0 (c.row i).rhs.exact.den|) := by
      rw [coeff_add, coeff_C]
      have : (0 : ℚ) ≤ if 0 = d then |coeff 0 (c.row i).rhs.exact.den| else 0 := by split <;> positivity
      exact add_nonneg (absolute_coeff_nonneg _ d) this
    refine add_le_add (le_mul_of_one_le_left e6 (by norm_num)) (e1.trans ?_)
    exact mul_le_mul_of_nonneg_right (by norm_num) e7
  obtain ⟨d, h3, h4⟩ := vec_minus_res rearrFree_degLE_one h.rows al ae g2 (fun i _ => nn _ _) (fun i _ => nn _ _)
  have hE : EArr n 1 (fun i _ => Res F64.rounding (c.Names n) (degLE 1) (0 + 1)
    (vd F64.rounding (c.row i).lhs - vd F64.rounding ((Expr.v e).entryD i 0))
    (ad F64.rounding (c.row i).lhs + ad F64.rounding ((Expr.v e).entryD i 0))) (.v d) := earr_v_iff.mpr h4
  refine ⟨d, ?_, hE.all fun i j a ha => (good_iff.mp ha.good).1, hE.shape, fun i hi => ?_⟩
  · unfold VCon.newLHS
    rw [k2, Go.ok_bind, h1, Go.ok_bind]
    show (do return ← (← Expr.minus (.v c.lhs) (.v e)).asVec : Go (Vec F64)) = _
    rw [h3]
    rfl
  · have hd := varr_entry h4 hi
    refine ⟨hd.good, hd.appr.fin, (hd.dopd degLE_one_flat).degs, fun v => ?_⟩
    have hr := h.each i hi
    have hx := varr_entry h2 hi
    have keep := sharp_keeps hr.rfloats hr.ronce hx v
    have ex : ((Expr.v e).entryD i 0).Repeats 1 := (hx.dopd degLE_one_flat).degs
    have e1 := hd.appr.err (Finsupp.single v 1)
    have e5 : F64.rounding.u = 1 / 2 ^ 53 := rfl
    rw [coeff_sub, coeff_add, zero_add, pow_one, add_sub_cancel_left, e5, ← Scalar.absolute_ad, ← Scalar.absolute_ad,
      ← Scalar.exact_vd, ← Scalar.exact_vd, coeff_absolute ex, keep, ← coeff_absolute hr.ronce] at e1
    rw [Scalar.exact_vd]
    exact e1

/-- The matrix and the numbers before the signs. -/
theorem VCon.LinearFloats.core (h : c.LinearFloats n) (hne : ws ≠ []) (hok : ∀ w ∈ ws, w.OK ∧ w.BoundsOK)
    (hnd : (ws.map (·.id)).Nodup) (hcov : ∀ i < n, (c.row i).CoveredBy ws) (hG : ∀ i < n, (c.row i).Subtracts)
    (hk : ∀ i < n, (c.row i).Kept) :
    ∃ (d : Vec F64) (A : ℕ → List F64) (b : ℕ → F64), c.newLHS = .ok d ∧
      d.linearCoeff [ws] = .ok ((List.range n).map A) ∧ c.newRHS = .ok ((List.range n).map b) ∧
      ∀ i < n, (c.row i).RowOf 1 ws (A i) (b i) := by
  have hn : 0 < n := by have := h.rows; omega
  obtain ⟨d, h1, cd, sd, h2⟩ := h.diff hG
  obtain ⟨k1, k2⟩ := h.constants
  refine ⟨d, fun i => ws.map fun w => .fin (coeff (Finsupp.single w.id 1) ((Expr.v d).entryD i 0).exact.den),
    fun i => GoNum.sub (F64.fin (coeff 0 (c.row i).rhs.exact.den)) (F64.fin (coeff 0 (c.row i).lhs.exact.den)), h1,
    vec_linearCoeff_map hn cd sd hne fun i hi => ?_, ?_, fun i hi => ?_⟩
  · obtain ⟨gd, fd, od, ed⟩ := h2 i hi
    obtain ⟨cx, -, md⟩ := good_iff.mp gd
    refine linearCoeff_read cx fd od (fun v hv => ?_) (fun m hm hv => ?_) hne hok hnd fun v hv => ?_
    · obtain ⟨j, hj, hv⟩ := md v hv
      exact (h.each j hj).bounds v hv
    · obtain ⟨v, hv'⟩ := hk i hi
      have e1 := ed v
      have e2 : coeff (Finsupp.single v 1) ((Expr.v d).entryD i 0).exact.den = 0 := by
        rw [hm, Scalar.exact_vd]
        show coeff _ (vden _ [m]) = 0
        rw [vden_cons, vden_nil, add_zero, vterm, coeff_monomial, if_neg]
        rw [show m.degs = 0 by simp [Mono.degs, hv]]
        exact (coeff_single_ne v).symm
      rw [e2, zero_sub, abs_neg] at e1
      exact absurd hv' (not_lt.mpr e1)
    · obtain ⟨j, hj, hv⟩ := md v hv
      exact hcov j hj v hv
  · unfold VCon.newRHS
    rw [Vec.len_ok h.canon.left h.lshape hn, Go.ok_bind, if_neg (by omega), k1, k2]
    simp only [Go.ok_bind, List.length_map, List.length_range, ne_eq, not_true_eq_false, or_false,
      if_false, Go.pure_eq, zipWith_map_range]
  · obtain ⟨-, -, b, r3, r4, r5⟩ := linear_const (h.each i hi) (hG i hi).one
    obtain ⟨gd, fd, od, ed⟩ := h2 i hi
    dsimp only
    rw [r3]
    refine ⟨by simp, ?_, ⟨b, rfl, r4⟩, ?_, by rw [one_mul]; exact r5⟩
    · intro x hx
      obtain ⟨w, -, rfl⟩ := List.mem_map.mp hx
      exact ⟨_, rfl, Scalar.coeff_able fd od _⟩
    · rintro ⟨a, w⟩ haw
      have e : ∀ (f : Var F64 → F64) (l : List (Var F64)), (a, w) ∈ (l.map f).zip l → a = f w := by
        intro f l hl
        induction l with
        | nil => simp at hl
        | cons x l ih =>
          rw [List.map_cons, List.zip_cons_cons, List.mem_cons] at hl
          rcases hl with hl | hl
          · cases hl; rfl
          · exact ih hl
      rw [e _ _ haw, one_mul]
      exact ed w.id

private theorem rows_of {σ : ℚ} {A : ℕ → List F64} {b : ℕ → F64} (h : ∀ i < n, (c.row i).RowOf σ ws (A i) (b i)) :
    c.RowsOf n σ ws ((List.range n).map A) ((List.range n).map b) := by
  refine ⟨by simp, by simp, fun i row x h1 h2 => ?_⟩
  rw [List.getElem?_map] at h1 h2
  obtain ⟨j, hj, rfl⟩ := Option.map_eq_some_iff.mp h1
  obtain ⟨j', hj', rfl⟩ := Option.map_eq_some_iff.mp h2
  obtain ⟨hi, e1⟩ := List.getElem?_eq_some_iff.mp hj
  obtain ⟨hi', e2⟩ := List.getElem?_eq_some_iff.mp hj'
  rw [List.getElem_range] at e1
  rw [List.getElem_range] at e2
  rw [← e1, ← e2]
  exact h i (by simpa using hi)

/-- C72: the representation of a vector inequality, one rounding per entry. -/
theorem vec_linearIneq_rounding (h : c.LinearFloats n) (hs : c.sense ≠ .eq) (hne : ws ≠ [])
    (hok : ∀ w ∈ ws, w.OK ∧ w.BoundsOK) (hnd : (ws.map (·.id)).Nodup) (hcov : ∀ i < n, (c.row i).CoveredBy ws)
    (hG : ∀ i < n, (c.row i).Subtracts) (hk : ∀ i < n, (c.row i).Kept) :
    ∃ A b, c.linearIneq [ws] = .ok (A, b) ∧ c.RowsOf n c.sense.sign ws A b := by
  obtain ⟨d, A, b, h1, h2, h3, h4⟩ := h.core hne hok hnd hcov hG hk
  have k1 : c.check = .ok () := h.canon.check
  unfold VCon.linearIneq
  rw [k1, Go.ok_bind, h.required, Go.ok_bind, if_neg hs, h1, Go.ok_bind, h2, Go.ok_bind, h3]
  refine ⟨_, _, rfl, ?_⟩
  by_cases hge : c.sense = .ge
  · rw [if_pos hge, if_pos hge, hge, List.map_map, List.map_map]
    refine rows_of fun i hi => ?_
    have e : GoNum.mul negOne (b i) = GoNum.neg (b i) := by
      obtain ⟨q, hq, hq'⟩ := (h4 i hi).float
      rw [hq]
      show F64.ofRat (-1 * q) = _
      rw [neg_one_mul]
      exact F64.able_neg hq'
    show (c.row i).RowOf (-1) ws ((A i).map fun x => GoNum.mul negOne x) (GoNum.mul negOne (b i))
    rw [e]
    exact rowOf_ge (h4 i hi)
  · rw [if_neg hge, if_neg hge]
    have : c.sense.sign = 1 := by
      revert hge
      cases c.sense <;> simp [Sense.sign]
    rw [this]
    exact rows_of h4

/-- C72: the representation of a vector equality. -/
theorem vec_linearEq_rounding (h : c.LinearFloats n) (hs : c.sense = .eq) (hne : ws ≠ [])
    (hok : ∀ w ∈ ws, w.OK ∧ w.BoundsOK) (hnd : (ws.map (·.id)).Nodup) (hcov : ∀ i < n, (c.row i).CoveredBy ws)
    (hG : ∀ i < n, (c.row i).Subtracts) (hk : ∀ i < n, (c.row i).Kept) :
    ∃ A b, c.linearEq [ws] = .ok (A, b) ∧ c.RowsOf n 1 ws A b := by
  obtain ⟨d, A, b, h1, h2, h3, h4⟩ := h.core hne hok hnd hcov hG hk
  have k1 : c.check = .ok () := h.canon.check
  unfold VCon.linearEq
  rw [k1, Go.ok_bind, h.required, Go.ok_bind, if_neg (by simp [hs]), h1, Go.ok_bind, h2, Go.ok_bind, h3]
  exact ⟨_, _, rfl, rows_of h4⟩

/-! ## What the bound means -/

/-- C72: a point of the returned polyhedron violates no row by more than its margin, and a point that meets every
row by its margin is in the returned polyhedron. -/
theorem vec_linearIneq_margin (h : c.LinearFloats n) (hs : c.sense = .le ∨ c.sense = .ge) (hne : ws ≠ [])
    (hok : ∀ w ∈ ws, w.OK ∧ w.BoundsOK) (hnd : (ws.map (·.id)).Nodup) (hcov : ∀ i < n, (c.row i).CoveredBy ws)
    (hG : ∀ i < n, (c.row i).Subtracts) (hk : ∀ i < n, (c.row i).Kept) :
    ∃ A b, c.linearIneq [ws] = .ok (A, b) ∧ A.length = n ∧ b.length = n ∧ ∀ i row x, A[i]? = some row →
      b[i]? = some x → row.length = ws.length ∧ ∀ ρ,
      (rowValue row ws ρ ≤ x.val → match c.sense with
        | .ge => (c.row i).rhs.exact.value ρ ≤ (c.row i).lhs.exact.value ρ + 1 / 2 ^ 53 * (c.row i).size ρ
        | _ => (c.row i).lhs.exact.value ρ ≤ (c.row i).rhs.exact.value ρ + 1 / 2 ^ 53 * (c.row i).size ρ) ∧
      ((match c.sense with
        | .ge => (c.row i).rhs.exact.value ρ + 1 / 2 ^ 53 * (c.row i).size ρ ≤ (c.row i).lhs.exact.value ρ
        | _ => (c.row i).lhs.exact.value ρ + 1 / 2 ^ 53 * (c.row i).size ρ ≤ (c.row i).rhs.exact.value ρ) →
        rowValue row ws ρ ≤ x.val) := by
  have hs' : c.sense ≠ .eq := by rcases hs with h | h <;> rw [h] <;> decide
  obtain ⟨A, b, h1, h2, h3, h4⟩ := vec_linearIneq_rounding h hs' hne hok hnd hcov hG hk
  refine ⟨A, b, h1, h2, h3, fun i row x hr hx => ⟨(h4 i row x hr hx).length, fun ρ => ?_⟩⟩
  have hi : i < n := by
    obtain ⟨hi, -⟩ := List.getElem?_eq_some_iff.mp hr
    omega
  have := rowOf_margin (h.each i hi) hnd (hcov i hi) (sign_cases _) (h4 i row x hr hx) ρ
  rw [abs_le] at this
  rcases hs with hs | hs <;> rw [hs] at this ⊢ <;> simp only [Sense.sign] at this ⊢ <;>
    exact ⟨fun h => by linarith, fun h => by linarith⟩

/-- C72: the returned hyperplanes. -/
theorem vec_linearEq_margin (h : c.LinearFloats n) (hs : c.sense = .eq) (hne : ws ≠ [])
    (hok : ∀ w ∈ ws, w.OK ∧ w.BoundsOK) (hnd : (ws.map (·.id)).Nodup) (hcov : ∀ i < n, (c.row i).CoveredBy ws)
    (hG : ∀ i < n, (c.row i).Subtracts) (hk : ∀ i < n, (c.row i).Kept) :
    ∃ A b, c.linearEq [ws] = .ok (A, b) ∧ A.length = n ∧ b.length = n ∧ ∀ i row x, A[i]? = some row →
      b[i]? = some x → row.length = ws.length ∧ ∀ ρ,
      (rowValue row ws ρ = x.val →
        |(c.row i).lhs.exact.value ρ - (c.row i).rhs.exact.value ρ| ≤ 1 / 2 ^ 53 * (c.row i).size ρ) ∧
      ((c.row i).lhs.exact.value ρ = (c.row i).rhs.exact.value ρ →
        |rowValue row ws ρ - x.val| ≤ 1 / 2 ^ 53 * (c.row i).size ρ) := by
  obtain ⟨A, b, h1, h2, h3, h4⟩ := vec_linearEq_rounding h hs hne hok hnd hcov hG hk
  refine ⟨A, b, h1, h2, h3, fun i row x hr hx => ⟨(h4 i row x hr hx).length, fun ρ => ?_⟩⟩
  have hi : i < n := by
    obtain ⟨hi, -⟩ := List.getElem?_eq_some_iff.mp hr
    omega
  have := rowOf_margin (h.each i hi) hnd (hcov i hi) (Or.inl rfl) (h4 i row x hr hx) ρ
  constructor
  · intro e
    rwa [e, sub_self, zero_sub, one_mul, abs_neg] at this
  · intro e
    rwa [e, sub_self, mul_zero, sub_zero] at this

/-! ## A constraint that meets the hypotheses -/

/-- Two copies of `0.1 x + 5 ≤ x`. -/
def f64LinVCon : VCon F64 :=
  ⟨.p (List.replicate 2 ⟨[⟨.fin f64Tenth, [1], [f64Var 1]⟩, ⟨.fin 5, [], []⟩]⟩), .v [f64Var 1, f64Var 1], .le⟩

theorem f64LinVCon_row : ∀ i < 2, f64LinVCon.row i = f64LinCon := by
  intro i hi
  obtain rfl | rfl : i = 0 ∨ i = 1 := by omega
  all_goals rfl

theorem f64LinVCon_floats : f64LinVCon.LinearFloats 2 where
  rows := le_refl 2
  canon := by
    refine ⟨fun row hrow a ha => ?_, fun row hrow a ha => ?_, ⟨2, 1, ⟨rfl, ?_⟩, ⟨rfl, ?_⟩, by decide, by decide⟩,
      Or.inr (Or.inl rfl)⟩
    · fin_cases hrow <;> (fin_cases ha; exact f64Lin_canon)
    · fin_cases hrow <;> (fin_cases ha; rfl)
    · intro row hrow
      fin_cases hrow <;> rfl
    · intro row hrow
      fin_cases hrow <;> rfl
  lshape := ⟨rfl, by intro row hrow; fin_cases hrow <;> rfl⟩
  rshape := ⟨rfl, by intro row hrow; fin_cases hrow <;> rfl⟩
  each := fun i hi => by
    rw [f64LinVCon_row i hi]
    exact f64LinCon_floats

theorem f64LinCon_coeffs : coeff (Finsupp.single 1 1) f64LinCon.lhs.exact.den = f64Tenth ∧
    coeff (Finsupp.single 1 1) f64LinCon.rhs.exact.den = 1 ∧ coeff 0 f64LinCon.rhs.exact.den = 0 := by
  refine ⟨?_, ?_, ?_⟩
  · rw [Scalar.exact_vd]
    show coeff _ (vden _ [_, _]) = _
    rw [vden_cons, vden_cons, vden_nil, vterm, vterm, Var.degs_one, coeff_add, coeff_add, coeff_monomial,
      coeff_monomial, if_pos (by rfl), if_neg (fun h => coeff_single_ne 1 h.symm)]
    simp [F64.rounding, F64.val]
  · show coeff _ (X 1 : MvPolynomial ℕ ℚ) = 1
    simp
  · show coeff _ (X 1 : MvPolynomial ℕ ℚ) = 0
    simp

theorem f64LinCon_kept : f64LinCon.Kept := by
  refine ⟨1, ?_⟩
  rw [coeff_absolute f64LinCon_floats.lonce, coeff_absolute f64LinCon_floats.ronce, f64LinCon_coeffs.1,
    f64LinCon_coeffs.2.1]
  norm_num [f64Tenth, abs_of_pos, abs_of_neg]

theorem f64LinCon_subtracts : f64LinCon.Subtracts := by
  unfold SCon.Subtracts
  rw [f64LinCon_coeffs.2.2, abs_zero, map_zero, add_zero]
  refine noOverflow_of_sum (fun d => ?_) (by norm_num) ?_
  · rw [coeff_add]
    exact add_nonneg (absolute_coeff_nonneg _ d) (absolute_coeff_nonneg _ d)
  · rw [map_add]
    have h1 : eval (fun _ => 1) f64LinCon.lhs.exact.absolute.den ≤ 6 := f64Lin_sum
    have h2 : eval (fun _ => 1) f64LinCon.rhs.exact.absolute.den ≤ 6 := by
      rw [absolute_eval]
      simp [f64LinCon, Scalar.exact, Scalar.absSum, Scalar.coeffs]
    have h3 := six_le 1 (by norm_num)
    rw [pow_one] at h3
    exact (add_le_add h1 h2).trans h3

example : ∃ A b, f64LinVCon.linearIneq [[f64Var 1]] = .ok (A, b) ∧ f64LinVCon.RowsOf 2 1 [f64Var 1] A b :=
  vec_linearIneq_rounding f64LinVCon_floats (by decide) (by simp) (fun w hw => by
    rw [List.mem_singleton] at hw; subst hw; exact ⟨rfl, f64Var_bounds _⟩) (by simp)
    (fun i hi => by rw [f64LinVCon_row i hi]; exact f64LinCon_covered)
    (fun i hi => by rw [f64LinVCon_row i hi]; exact f64LinCon_subtracts)
    (fun i hi => by rw [f64LinVCon_row i hi]; exact f64LinCon_kept)

end Verif
