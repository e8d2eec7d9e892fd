import Verif.Lemmas.RoundArr
import Verif.Props.Round
import Verif.Props.Compile

/-!
# C70: rounding errors of `float64` arithmetic on vectors and matrices

Every entry of what `Plus`, `Minus` and `Multiply` return is within the standard bound of the entry of the
exact sum, difference or matrix product.  Some array operations leave like terms in an entry, so an entry
is described by two numbers: `n` roundings so far and at most `k` like terms, whose sum is rounded `k - 1`
times when the entry is simplified.  A sum has `max n n'` roundings and `k + k'` like terms.  A product of
matrices has one like term for each column of the first factor.
-/

set_option linter.unusedSectionVars false

namespace Verif

open MvPolynomial

/-! ## Specification -/

/-- `e` is well formed with exponent vectors in `D` and finite coefficients.  Its coefficients are those of
`f` up to `n` roundings, where `g` bounds the absolute values, and at most `k` terms are alike.  Fewer like
terms may be exchanged for more roundings, because adding up like terms rounds. -/
structure Scalar.Rounded (D : Set (ℕ →₀ ℕ)) (n k : ℕ) (f g : MvPolynomial ℕ ℚ) (e : Scalar F64) : Prop where
  canon : e.Canon
  terms : e.TermsIn D
  floats : e.Floats
  le : ∀ d, |coeff d f| ≤ coeff d g
  near : ∃ n' k', n' + k' ≤ n + k ∧ k' ≤ k ∧ e.Alike k' ∧
    (∀ d, |coeff d e.exact.den - coeff d f| ≤ ((1 + 1 / 2 ^ 53) ^ n' - 1) * coeff d g) ∧
    ∀ d, coeff d e.exact.absolute.den ≤ (1 + 1 / 2 ^ 53) ^ n' * coeff d g

variable {r c : ℕ}

/-- The same for all entries of an `r × c` array. -/
structure Expr.Rounded (D : Set (ℕ →₀ ℕ)) (n k : ℕ) (M G : Matrix (Fin r) (Fin c) (MvPolynomial ℕ ℚ))
    (e : Expr F64) : Prop where
  shape : e.Shape r c
  entry : ∀ (i : Fin r) (j : Fin c), (e.entryD i j).Rounded D n k (M i j) (G i j)

/-- The exact values of the entries. -/
noncomputable def Expr.exactM (r c : ℕ) (e : Expr F64) : Matrix (Fin r) (Fin c) (MvPolynomial ℕ ℚ) :=
  Matrix.of fun i j => (e.entryD i j).exact.den

/-- The entries with the absolute values of the coefficients. -/
noncomputable def Expr.absM (r c : ℕ) (e : Expr F64) : Matrix (Fin r) (Fin c) (MvPolynomial ℕ ℚ) :=
  Matrix.of fun i j => (e.entryD i j).exact.absolute.den

/-! ## Bridge -/

variable {D D1 D2 D3 : Set (ℕ →₀ ℕ)}

private abbrev tt : Var F64 → Prop := fun _ => True

theorem scalar_rounded_iff {n k : ℕ} {f g : MvPolynomial ℕ ℚ} {e : Scalar F64} :
    e.Rounded D n k f g ↔ Good tt D e ∧ Near2 F64.rounding n k f g e := by
  constructor
  · rintro ⟨h1, h2, h3, h4, n', k', a, b, h5, h6, h7⟩
    rw [Scalar.exact_vd] at h6
    rw [Scalar.absolute_ad] at h7
    exact ⟨good_of h1 h2, n', k', a, b, h5, h3, h6, h4, h7⟩
  · rintro ⟨h, n', k', a, b, h5, h3, h6, h4, h7⟩
    obtain ⟨h1, h2, -⟩ := good_iff.mp h
    exact ⟨h1, h2, h3, h4, n', k', a, b, h5, by rw [Scalar.exact_vd]; exact h6, by rw [Scalar.absolute_ad]; exact h7⟩

theorem rounded_iff {n k : ℕ} {M G : Matrix (Fin r) (Fin c) (MvPolynomial ℕ ℚ)} {e : Expr F64} :
    e.Rounded D n k M G ↔ EArr r c (fun i j x => x.Rounded D n k (extM M i j) (extM G i j)) e := by
  constructor
  · rintro ⟨h1, h2⟩
    have h := shape_iff.mp h1
    refine ⟨h.1, fun i row hi => ⟨(h.2 i row hi).1, fun j x hj => ?_⟩⟩
    have hir : i < r := h.1 ▸ (List.getElem?_eq_some_iff.mp hi).1
    have hjc : j < c := (h.2 i row hi).1 ▸ (List.getElem?_eq_some_iff.mp hj).1
    have := h2 ⟨i, hir⟩ ⟨j, hjc⟩
    show Scalar.Rounded D n k (extM M i j) (extM G i j) x
    rw [extM_of M hir hjc, extM_of G hir hjc]
    have e1 : e.entryD i j = x := by
      unfold Expr.entryD Expr.entry
      rw [hi, Option.bind_some, hj]; rfl
    rwa [← e1]
  · intro h
    refine ⟨h.shape, fun i j => ?_⟩
    obtain ⟨x, h1, h2⟩ := h.get i.2 j.2
    unfold Expr.entryD
    rw [h1]
    rwa [extM_fin, extM_fin] at h2

/-- The meaning of the entries. -/
private noncomputable def mean (n k t : ℕ) (M G : Matrix (Fin r) (Fin c) (MvPolynomial ℕ ℚ)) (i j : ℕ) : RMean ℚ :=
  ⟨extM M i j, extM G i j, n, k, t⟩

private theorem near2_mean {n k : ℕ} {f g : MvPolynomial ℕ ℚ} {e : Scalar F64} (h : e.Rounded D n k f g) :
    Mean F64.rounding tt D ⟨f, g, n, k, 0⟩ e :=
  ⟨h.le, (scalar_rounded_iff.mp h).1, fun _ => (scalar_rounded_iff.mp h).2⟩

private theorem arr_mean {n k : ℕ} {M G : Matrix (Fin r) (Fin c) (MvPolynomial ℕ ℚ)} {e : Expr F64}
    (h : e.Rounded D n k M G) : EArr r c (fun i j => Mean F64.rounding tt D (mean n k 0 M G i j)) e :=
  (rounded_iff.mp h).mono fun _ _ _ _ _ h => near2_mean h

private theorem mean_spec {n k : ℕ} {f g : MvPolynomial ℕ ℚ} {μ : RMean ℚ} {e : Scalar F64}
    (h : Mean F64.rounding tt D μ e) (hf : μ.f = f) (hg : μ.g = g) (hn : μ.n + μ.k ≤ n + k) (hk : μ.k ≤ k)
    (hG : NoOverflow (n + k - 1) g) : e.Rounded D n k f g := by
  subst hf hg
  exact scalar_rounded_iff.mpr ⟨h.2.1, (h.2.2 ((fits_of hG).le (by omega) h.nonneg fun _ => le_refl _)).mono hn hk⟩

private theorem arr_spec {n k : ℕ} {M G : Matrix (Fin r) (Fin c) (MvPolynomial ℕ ℚ)} {μ : ℕ → ℕ → RMean ℚ}
    {x : Go (Expr F64)} {e : Expr F64} (h : Go.Post x (EArr r c fun i j => Mean F64.rounding tt D (μ i j)))
    (he : x = .ok e) (hf : ∀ (i : Fin r) (j : Fin c), (μ i j).f = M i j)
    (hg : ∀ (i : Fin r) (j : Fin c), (μ i j).g = G i j) (hn : ∀ i j, (μ i j).n + (μ i j).k ≤ n + k)
    (hk : ∀ i j, (μ i j).k ≤ k) (hG : ∀ i j, NoOverflow (n + k - 1) (G i j)) : e.Rounded D n k M G :=
  rounded_iff.mpr ((h e he).mono fun i j a hi hj h => by
    rw [extM_of M hi hj, extM_of G hi hj]
    exact mean_spec h (hf ⟨i, hi⟩ ⟨j, hj⟩) (hg ⟨i, hi⟩ ⟨j, hj⟩) (hn i j) (hk i j) (hG ⟨i, hi⟩ ⟨j, hj⟩))

/-! ## Sums and differences -/

variable {n1 n2 k1 k2 : ℕ} {a b e : Expr F64}

/-- C70: whatever `Plus` of two arrays returns is the sum up to rounding. -/
theorem plus_array_rounding {A GA B GB : Matrix (Fin r) (Fin c) (MvPolynomial ℕ ℚ)} (hD : RearrFree D)
    (hr : 0 < r) (hc : 0 < c) (ha : a.Rounded D n1 k1 A GA) (hb : b.Rounded D n2 k2 B GB)
    (hG : ∀ i j, NoOverflow (max n1 n2 + (k1 + k2) - 1) (GA i j + GB i j)) (he : a.plus b = .ok e) :
    e.Rounded D (max n1 n2) (k1 + k2) (A + B) (GA + GB) :=
  arr_spec (Expr.plus_post (addSem_round hD) hr hc (arr_mean ha) (arr_mean hb)) he
    (fun i j => congrArg₂ (· + ·) (extM_fin A i j) (extM_fin B i j))
    (fun i j => congrArg₂ (· + ·) (extM_fin GA i j) (extM_fin GB i j))
    (fun _ _ => le_refl _) (fun _ _ => le_refl _) hG

private theorem sub_f {x y : NMean ℚ} : RMean.f (x + y * negMean ℚ : NMean ℚ) = RMean.f x - RMean.f y := by
  show RMean.f x + RMean.f y * -1 = _
  rw [mul_neg, mul_one, ← sub_eq_add_neg]

private theorem sub_g {x y : NMean ℚ} : RMean.g (x + y * negMean ℚ : NMean ℚ) = RMean.g x + RMean.g y := by
  show RMean.g x + RMean.g y * 1 = _
  rw [mul_one]

private theorem sub_n {x y : NMean ℚ} : RMean.n (x + y * negMean ℚ : NMean ℚ) = max (RMean.n x) (RMean.n y) := rfl

private theorem sub_k {x y : NMean ℚ} : RMean.k (x + y * negMean ℚ : NMean ℚ) = RMean.k x + RMean.k y := by
  show RMean.k x + RMean.k y * 1 = _
  rw [Nat.mul_one]

/-- C70: whatever `Minus` of two arrays returns is the difference up to rounding. -/
theorem minus_array_rounding {A GA B GB : Matrix (Fin r) (Fin c) (MvPolynomial ℕ ℚ)} (hD : RearrFree D)
    (hr : 0 < r) (hc : 0 < c) (ha : a.Rounded D n1 k1 A GA) (hb : b.Rounded D n2 k2 B GB)
    (hG : ∀ i j, NoOverflow (max n1 n2 + (k1 + k2) - 1) (GA i j + GB i j)) (he : a.minus b = .ok e) :
    e.Rounded D (max n1 n2) (k1 + k2) (A - B) (GA + GB) :=
  arr_spec (Expr.minus_post (X := NMean ℚ) (mulSem_neg hD) isNeg hr hc (arr_mean ha) (arr_mean hb)) he
    (fun i j => sub_f.trans (congrArg₂ (· - ·) (extM_fin A i j) (extM_fin B i j)))
    (fun i j => sub_g.trans (congrArg₂ (· + ·) (extM_fin GA i j) (extM_fin GB i j)))
    (fun _ _ => Nat.add_le_add (le_of_eq sub_n) (le_of_eq sub_k)) (fun _ _ => le_of_eq sub_k) hG

section Broadcast
variable {A GA : Matrix (Fin r) (Fin c) (MvPolynomial ℕ ℚ)} {s : Scalar F64} {f g : MvPolynomial ℕ ℚ}

/-- C70: a scalar added on the right. -/
theorem plus_scalar_rounding (hD : RearrFree D) (hr : 0 < r) (hc : 0 < c) (ha : a.Rounded D n1 k1 A GA)
    (hs : s.Rounded D n2 k2 f g) (hG : ∀ i j, NoOverflow (max n1 n2 + (k1 + k2) - 1) (GA i j + g))
    (he : a.plus (.s s) = .ok e) :
    e.Rounded D (max n1 n2) (k1 + k2) (Matrix.of fun i j => A i j + f) (Matrix.of fun i j => GA i j + g) :=
  arr_spec (Expr.plus_scalar_post (addSem_round hD) hr hc (arr_mean ha) (near2_mean hs)) he
    (fun i j => congrArg (· + f) (extM_fin A i j)) (fun i j => congrArg (· + g) (extM_fin GA i j))
    (fun _ _ => le_refl _) (fun _ _ => le_refl _) hG

/-- C70: a scalar on the left. -/
theorem scalar_plus_rounding (hD : RearrFree D) (hr : 0 < r) (hc : 0 < c) (hs : s.Rounded D n2 k2 f g)
    (ha : a.Rounded D n1 k1 A GA) (hG : ∀ i j, NoOverflow (max n2 n1 + (k2 + k1) - 1) (g + GA i j))
    (he : (Expr.s s).plus a = .ok e) :
    e.Rounded D (max n2 n1) (k2 + k1) (Matrix.of fun i j => f + A i j) (Matrix.of fun i j => g + GA i j) :=
  arr_spec (Expr.scalar_plus_post (addSem_round hD) hr hc (near2_mean hs) (arr_mean ha)) he
    (fun i j => congrArg (f + ·) (extM_fin A i j)) (fun i j => congrArg (g + ·) (extM_fin GA i j))
    (fun _ _ => le_refl _) (fun _ _ => le_refl _) hG

/-- C70: a scalar subtracted. -/
theorem minus_scalar_rounding (hD : RearrFree D) (hr : 0 < r) (hc : 0 < c) (ha : a.Rounded D n1 k1 A GA)
    (hs : s.Rounded D n2 k2 f g) (hG : ∀ i j, NoOverflow (max n1 n2 + (k1 + k2) - 1) (GA i j + g))
    (he : a.minus (.s s) = .ok e) :
    e.Rounded D (max n1 n2) (k1 + k2) (Matrix.of fun i j => A i j - f) (Matrix.of fun i j => GA i j + g) :=
  arr_spec (Expr.minus_scalar_post (X := NMean ℚ) (mulSem_neg hD) isNeg hr hc (arr_mean ha) (near2_mean hs)) he
    (fun i j => sub_f.trans (congrArg (· - f) (extM_fin A i j)))
    (fun i j => sub_g.trans (congrArg (· + g) (extM_fin GA i j)))
    (fun _ _ => Nat.add_le_add (le_of_eq sub_n) (le_of_eq sub_k)) (fun _ _ => le_of_eq sub_k) hG

/-- C70: an array subtracted from a scalar. -/
theorem scalar_minus_rounding (hD : RearrFree D) (hr : 0 < r) (hc : 0 < c) (hs : s.Rounded D n2 k2 f g)
    (ha : a.Rounded D n1 k1 A GA) (hG : ∀ i j, NoOverflow (max n2 n1 + (k2 + k1) - 1) (g + GA i j))
    (he : (Expr.s s).minus a = .ok e) :
    e.Rounded D (max n2 n1) (k2 + k1) (Matrix.of fun i j => f - A i j) (Matrix.of fun i j => g + GA i j) :=
  arr_spec (Expr.scalar_minus_post (X := NMean ℚ) (mulSem_neg hD) isNeg hr hc (near2_mean hs) (arr_mean ha)) he
    (fun i j => sub_f.trans (congrArg (f - ·) (extM_fin A i j)))
    (fun i j => sub_g.trans (congrArg (g + ·) (extM_fin GA i j)))
    (fun _ _ => Nat.add_le_add (le_of_eq sub_n) (le_of_eq sub_k)) (fun _ _ => le_of_eq sub_k) hG

end Broadcast

/-! ## Products -/

private theorem scalar_factor {n k t : ℕ} {f g : MvPolynomial ℕ ℚ} {x : Scalar F64} {C : F64 → Prop}
    (h : x.Rounded D n k f g) (ht : x.terms.length ≤ t) (hC : ∀ m ∈ x.terms, C m.coeff) :
    Factor F64.rounding tt D C ⟨f, g, n, k, t⟩ x :=
  ⟨(scalar_rounded_iff.mp h).1, (scalar_rounded_iff.mp h).2, ht, hC⟩

private theorem arr_factor {n k t : ℕ} {M G : Matrix (Fin r) (Fin c) (MvPolynomial ℕ ℚ)} {x : Expr F64}
    (h : x.Rounded D n k M G) (ht : ∀ (i : Fin r) (j : Fin c), (x.entryD i j).terms.length ≤ t) :
    EArr r c (fun i j => Factor F64.rounding tt D
      (fun v => ∃ (i : Fin r) (j : Fin c), ∃ m ∈ (x.entryD i j).terms, m.coeff = v) (mean n k t M G i j)) x := by
  have h1 := shape_iff.mp h.shape
  refine ⟨h1.1, fun i row hi => ⟨(h1.2 i row hi).1, fun j y hj => ?_⟩⟩
  have hir : i < r := h1.1 ▸ (List.getElem?_eq_some_iff.mp hi).1
  have hjc : j < c := (h1.2 i row hi).1 ▸ (List.getElem?_eq_some_iff.mp hj).1
  have e1 : x.entryD i j = y := by
    unfold Expr.entryD Expr.entry
    rw [hi, Option.bind_some, hj]; rfl
  have h2 := h.entry ⟨i, hir⟩ ⟨j, hjc⟩
  have h3 := ht ⟨i, hir⟩ ⟨j, hjc⟩
  show Factor F64.rounding tt D _ ⟨extM M i j, extM G i j, n, k, t⟩ y
  rw [extM_of M hir hjc, extM_of G hir hjc, ← e1]
  exact scalar_factor h2 h3 fun m hm => ⟨⟨i, hir⟩, ⟨j, hjc⟩, m, hm, rfl⟩

private theorem psum_n {f g : ℕ → ℕ → RMean ℚ} {N : ℕ} (h : ∀ i j l, (f i l * g l j).n ≤ N) (i j q : ℕ) :
    (psumG f g i j q).n ≤ N ∧ (psumG f g i j q).k = 1 + q ∧
    (psumG f g i j q).f = ∑ l ∈ Finset.range q, (f i l).f * (g l j).f ∧
    (psumG f g i j q).g = ∑ l ∈ Finset.range q, (f i l).g * (g l j).g := by
  induction q with
  | zero => exact ⟨Nat.zero_le _, rfl, rfl, rfl⟩
  | succ q ih =>
    obtain ⟨h1, h2, h3, h4⟩ := ih
    refine ⟨max_le h1 (h i j q), ?_, ?_, ?_⟩
    · show (psumG f g i j q).k + 1 = _
      rw [h2]; rfl
    · show (psumG f g i j q).f + (f i q).f * (g q j).f = _
      rw [h3, Finset.sum_range_succ]
    · show (psumG f g i j q).g + (f i q).g * (g q j).g = _
      rw [h4, Finset.sum_range_succ]

private theorem normal_of {x y : F64} (h : (1 : ℚ) / 2 ^ 1022 ≤ |x.val * y.val| ∨ ∃ k : ℤ, x.val * y.val = k / 2 ^ 1074) :
    F64.rounding.Normal (F64.rounding.val x * F64.rounding.val y) := by
  rw [F64.rounding_val, F64.rounding_val]
  exact h

/-- C70: whatever `Multiply` of two arrays returns is the matrix product up to rounding.  Each product of
entries adds the roundings of the factors, those of adding up like terms, one for the product of the
coefficients and at most one for each term of the longer factor; the sum of `q` products has at most `q + 1`
like terms. -/
theorem mul_array_rounding {q t : ℕ} {A GA : Matrix (Fin r) (Fin q) (MvPolynomial ℕ ℚ)}
    {B GB : Matrix (Fin q) (Fin c) (MvPolynomial ℕ ℚ)} (h : ProdIn D1 D2 D3) (hD : RearrFree D3)
    (hD1 : D1 ⊆ flat) (hD2 : D2 ⊆ flat) (hr : 0 < r) (hq : 0 < q) (hc : 0 < c)
    (ha : a.Rounded D1 n1 k1 A GA) (hb : b.Rounded D2 n2 k2 B GB)
    (ta : ∀ (i : Fin r) (l : Fin q), (a.entryD i l).terms.length ≤ t)
    (tb : ∀ (l : Fin q) (j : Fin c), (b.entryD l j).terms.length ≤ t)
    (hN : ∀ (i : Fin r) (l l' : Fin q) (j : Fin c), NoUnderflow (a.entryD i l) (b.entryD l' j))
    (hG : ∀ i j, NoOverflow (n1 + k1 + (n2 + k2) - 1 + t + (q + 1) - 1) ((GA * GB) i j))
    (he : a.mul b = .ok e) :
    e.Rounded D3 (n1 + k1 + (n2 + k2) - 1 + t) (q + 1) (A * B) (GA * GB) := by
  have hps := psum_n (f := mean n1 k1 t A GA) (g := mean n2 k2 t B GB) (N := n1 + k1 + (n2 + k2) - 1 + t)
    (fun i j l => by show _ + max t t ≤ _; rw [max_self]; exact le_refl _)
  refine arr_spec (Expr.mul_post
    (mulSem_round h hD hD1 hD2 fun x y => ?_) (mulSem_round h.symm hD hD2 hD1 fun x y => ?_)
    hr hq hc (arr_factor ha ta) (arr_factor hb tb)) he (fun i j => ?_) (fun i j => ?_) (fun i j => ?_)
    (fun i j => ?_) hG
  · rintro ⟨i, l, m, hm, rfl⟩ ⟨l', j, m', hm', rfl⟩
    exact normal_of (hN i l l' j m hm m' hm')
  · rintro ⟨l', j, m', hm', rfl⟩ ⟨i, l, m, hm, rfl⟩
    rw [mul_comm]
    exact normal_of (hN i l l' j m hm m' hm')
  · rw [(hps i j q).2.2.1, Matrix.mul_apply, Finset.sum_range]
    exact Finset.sum_congr rfl fun l _ => congrArg₂ (· * ·) (extM_fin A i l) (extM_fin B l j)
  · rw [(hps i j q).2.2.2, Matrix.mul_apply, Finset.sum_range]
    exact Finset.sum_congr rfl fun l _ => congrArg₂ (· * ·) (extM_fin GA i l) (extM_fin GB l j)
  · have := hps i j q; omega
  · have := hps i j q; omega

section Scalars
variable {A GA : Matrix (Fin r) (Fin c) (MvPolynomial ℕ ℚ)} {s : Scalar F64} {f g : MvPolynomial ℕ ℚ} {t : ℕ}

/-- C70: an array times a scalar. -/
theorem mul_scalar_rounding (h : ProdIn D1 D2 D3) (hD : RearrFree D3) (hD1 : D1 ⊆ flat) (hD2 : D2 ⊆ flat)
    (hr : 0 < r) (hc : 0 < c) (ha : a.Rounded D1 n1 k1 A GA) (hs : s.Rounded D2 n2 k2 f g)
    (ta : ∀ (i : Fin r) (j : Fin c), (a.entryD i j).terms.length ≤ t) (ts : s.terms.length ≤ t)
    (hN : ∀ (i : Fin r) (j : Fin c), NoUnderflow (a.entryD i j) s)
    (hG : ∀ i j, NoOverflow (n1 + k1 + (n2 + k2) - 1 + t) (GA i j * g)) (he : a.mul (.s s) = .ok e) :
    e.Rounded D3 (n1 + k1 + (n2 + k2) - 1 + t) 1 (Matrix.of fun i j => A i j * f)
      (Matrix.of fun i j => GA i j * g) := by
  refine arr_spec (Expr.mul_scalar_post
    (mulSem_round h hD hD1 hD2 fun x y => ?_) hr hc (arr_factor ha ta)
    (scalar_factor (C := fun v => ∃ m ∈ s.terms, m.coeff = v) hs ts fun m hm => ⟨m, hm, rfl⟩)) he
    (fun i j => congrArg (· * f) (extM_fin A i j)) (fun i j => congrArg (· * g) (extM_fin GA i j))
    (fun i j => ?_) (fun i j => le_refl _) hG
  · rintro ⟨i, l, m, hm, rfl⟩ ⟨m', hm', rfl⟩
    exact normal_of (hN i l m hm m' hm')
  · show _ + max t t + 1 ≤ _
    rw [max_self]; exact le_refl _

/-- C70: a scalar times an array. -/
theorem scalar_mul_rounding (h : ProdIn D1 D2 D3) (hD : RearrFree D3) (hD1 : D1 ⊆ flat) (hD2 : D2 ⊆ flat)
    (hr : 0 < r) (hc : 0 < c) (hs : s.Rounded D1 n1 k1 f g) (ha : a.Rounded D2 n2 k2 A GA)
    (ts : s.terms.length ≤ t) (ta : ∀ (i : Fin r) (j : Fin c), (a.entryD i j).terms.length ≤ t)
    (hN : ∀ (i : Fin r) (j : Fin c), NoUnderflow s (a.entryD i j))
    (hG : ∀ i j, NoOverflow (n1 + k1 + (n2 + k2) - 1 + t) (g * GA i j)) (he : (Expr.s s).mul a = .ok e) :
    e.Rounded D3 (n1 + k1 + (n2 + k2) - 1 + t) 1 (Matrix.of fun i j => f * A i j)
      (Matrix.of fun i j => g * GA i j) := by
  refine arr_spec (Expr.scalar_mul_post
    (mulSem_round h hD hD1 hD2 fun x y => ?_) (mulSem_round h.symm hD hD2 hD1 fun x y => ?_) hr hc
    (scalar_factor (C := fun v => ∃ m ∈ s.terms, m.coeff = v) hs ts fun m hm => ⟨m, hm, rfl⟩)
    (arr_factor ha ta)) he
    (fun i j => congrArg (f * ·) (extM_fin A i j)) (fun i j => congrArg (g * ·) (extM_fin GA i j))
    (fun i j => ?_) (fun i j => le_refl _) hG
  · rintro ⟨m', hm', rfl⟩ ⟨i, l, m, hm, rfl⟩
    exact normal_of (hN i l m' hm' m hm)
  · rintro ⟨i, l, m, hm, rfl⟩ ⟨m', hm', rfl⟩
    rw [mul_comm]
    exact normal_of (hN i l m' hm' m hm)
  · show _ + max t t + 1 ≤ _
    rw [max_self]; exact le_refl _

end Scalars

/-! ## What the bound means -/

section Meaning
variable {n k : ℕ} {f g : MvPolynomial ℕ ℚ} {s : Scalar F64}

/-- Every array of finite floats without like terms stands for itself. -/
theorem rounded_self (hs : a.Shape r c) (ca : a.Canon) (ta : a.TermsIn D) (fa : a.All Scalar.Floats)
    (ka : a.All (Scalar.Alike k)) : a.Rounded D 0 k (a.exactM r c) (a.absM r c) := by
  have h := ((((shape_iff.mp hs).and_all ca).and_all ta).and_all fa).and_all ka
  refine ⟨hs, fun i j => ?_⟩
  obtain ⟨x, h1, ⟨⟨⟨⟨-, h2⟩, h3⟩, h4⟩, h5⟩⟩ := h.get i.2 j.2
  show Scalar.Rounded D 0 k (a.entryD i j).exact.den (a.entryD i j).exact.absolute.den _
  have e1 : a.entryD i j = x := by unfold Expr.entryD; rw [h1]; rfl
  rw [e1, scalar_rounded_iff, Scalar.exact_vd, Scalar.absolute_ad]
  exact ⟨good_of h2 h3, 0, k, le_refl _, le_refl _, h5, appr_self h4⟩

/-- C69 for one entry. -/
theorem rounded_of_approx (h : s.Approx D n f g) : s.Rounded D n 1 f g :=
  scalar_rounded_iff.mpr ⟨(approx_iff.mp h).good, (approx_iff.mp h).near2⟩

/-- Simplifying an entry gives an approximation with `n + k - 1` roundings. -/
theorem rounded_simplify (hD : RearrFree D) (h : s.Rounded D n k f g) (hG : NoOverflow (n + k - 1) g) :
    ∃ x, s.asSimplified = .ok x ∧ x.Approx D (n + k - 1) f g := by
  obtain ⟨h1, h2⟩ := scalar_rounded_iff.mp h
  obtain ⟨x, h3, h4⟩ := simp_near2 hD h1 h2 (fits_of hG)
  exact ⟨x, h3, approx_iff.mpr h4⟩

/-- The error of the coefficients, and at every point. -/
theorem rounded_error (h : s.Rounded D n k f g) :
    (∀ d, |coeff d s.exact.den - coeff d f| ≤ ((1 + 1 / 2 ^ 53) ^ (n + k - 1) - 1) * coeff d g) ∧
    ∀ ρ : ℕ → ℚ, |s.exact.value ρ - eval ρ f| ≤ ((1 + 1 / 2 ^ 53) ^ (n + k - 1) - 1) * eval (fun i => |ρ i|) g := by
  have hg : ∀ d, 0 ≤ coeff d g := fun d => (abs_nonneg _).trans (h.le d)
  have key : ∀ d, |coeff d s.exact.den - coeff d f| ≤ ((1 + 1 / 2 ^ 53) ^ (n + k - 1) - 1) * coeff d g := by
    obtain ⟨h1, n', k', a, b, c, d⟩ := scalar_rounded_iff.mp h
    have hk := c.pos (Scalar.terms_ne h1)
    intro e
    rw [Scalar.exact_vd]
    exact (d.weaken (by omega : n' ≤ n + k - 1)).err e
  refine ⟨key, fun ρ => ?_⟩
  unfold Scalar.value
  rw [← map_sub]
  refine eval_abs_le ?_ hg (fun d => ?_) ρ
  · exact sub_nonneg.mpr (one_le_pow₀ (by norm_num))
  · rw [coeff_sub]; exact key d

end Meaning

/-! ## The hypotheses are met -/

/-- `[[0.1, 5], [3, 0.1]]`. -/
def f64TMat : Expr F64 := .m (.k [[.fin f64Tenth, .fin 5], [.fin 3, .fin f64Tenth]])

/-- `[x, y]`. -/
def f64XVec : Expr F64 := .v (.v [f64Var 1, f64Var 2])

/-- Every entry has one term, with a finite coefficient. -/
def oneTerm (e : Expr F64) : Bool := e.grid.all fun row => row.all fun a => (a.terms.length == 1) && floatCheck a

theorem oneTerm_spec {e : Expr F64} (h : oneTerm e = true) : e.All Scalar.Floats ∧ e.All (Scalar.Alike 1) := by
  have h' : ∀ row ∈ e.grid, ∀ a ∈ row, a.terms.length = 1 ∧ floatCheck a = true := by
    simpa [oneTerm] using h
  refine ⟨fun row hrow a ha => floatCheck_spec (h' row hrow a ha).2, fun row hrow a ha x => ?_⟩
  refine List.count_le_length.trans ?_
  rw [List.length_map, (h' row hrow a ha).1]

theorem f64TMat_rounded : f64TMat.Rounded (degLE 0) 0 1 (f64TMat.exactM 2 2) (f64TMat.absM 2 2) := by
  have h := oneTerm_spec (e := f64TMat) (by decide +kernel)
  refine rounded_self ⟨rfl, ?_⟩ ?_ ?_ h.1 h.2
  · intro row hrow; fin_cases hrow <;> rfl
  · intro row hrow a ha; fin_cases hrow <;> fin_cases ha <;> trivial
  · intro row hrow a ha; fin_cases hrow <;> fin_cases ha <;> trivial

theorem f64XVec_rounded : f64XVec.Rounded (degLE 1) 0 1 (f64XVec.exactM 2 1) (f64XVec.absM 2 1) := by
  have h := oneTerm_spec (e := f64XVec) (by decide +kernel)
  refine rounded_self ⟨rfl, ?_⟩ ?_ ?_ h.1 h.2
  · intro row hrow; fin_cases hrow <;> rfl
  · intro row hrow a ha; fin_cases hrow <;> fin_cases ha <;> rfl
  · intro row hrow a ha
    fin_cases hrow <;> fin_cases ha <;>
      (show (Finsupp.single _ 1).sum (fun _ e => e) ≤ 1; rw [Finsupp.sum_single_index rfl])

/-- Every entry of `e` and its absolute sum. -/
theorem absM_eval (e : Expr F64) {r c : ℕ} (i : Fin r) (j : Fin c) :
    eval (fun _ => 1) (e.absM r c i j) = (e.entryD i j).exact.absSum := absolute_eval _

theorem absM_nonneg (e : Expr F64) {r c : ℕ} (i : Fin r) (j : Fin c) (d) : 0 ≤ coeff d (e.absM r c i j) :=
  absolute_coeff_nonneg _ d

theorem f64TMat_sum (i j : Fin 2) : eval (fun _ => 1) (f64TMat.absM 2 2 i j) ≤ 5 := by
  rw [absM_eval]
  fin_cases i <;> fin_cases j <;> decide +kernel

theorem f64XVec_sum (i : Fin 2) (j : Fin 1) : eval (fun _ => 1) (f64XVec.absM 2 1 i j) ≤ 1 := by
  rw [absM_eval]
  fin_cases i <;> fin_cases j <;> decide +kernel

theorem ten_le : (10 : ℚ) ≤ 2 ^ 1022 := by
  have h : (2 : ℚ) ^ 4 ≤ 2 ^ 1022 := pow_le_pow_right₀ (by norm_num) (by norm_num)
  exact le_trans (by norm_num) h

/-- The run succeeds. -/
def succeeds {α : Type} : Go α → Bool
  | .ok _ => true
  | _ => false

theorem succeeds_spec {α : Type} {x : Go α} (h : succeeds x = true) : ∃ a, x = .ok a := by
  cases x with
  | ok a => exact ⟨a, rfl⟩
  | error e => cases h

/-- `[[0.1, 5], [3, 0.1]] * [x, y]`: at most four roundings. -/
example : ∃ e, f64TMat.mul f64XVec = .ok e ∧ e.Rounded (degLE (0 + 1)) 2 3
    (f64TMat.exactM 2 2 * f64XVec.exactM 2 1) (f64TMat.absM 2 2 * f64XVec.absM 2 1) := by
  obtain ⟨e, he⟩ := succeeds_spec (x := f64TMat.mul f64XVec) (by decide +kernel)
  refine ⟨e, he, mul_array_rounding (t := 1) (prodIn_degLE 0 1)
    (rearrFree_degLE_two.mono (degLE_mono (by norm_num))) ((degLE_mono (by norm_num)).trans degLE_two_flat)
    ((degLE_mono (by norm_num)).trans degLE_two_flat) (by norm_num) (by norm_num) (by norm_num) f64TMat_rounded
    f64XVec_rounded ?_ ?_ ?_ ?_ he⟩
  · intro i l; fin_cases i <;> fin_cases l <;> decide
  · intro i l; fin_cases i <;> fin_cases l <;> decide
  · intro i l l' j
    refine normalCheck_spec (x := .ok (f64TMat.entryD i l)) ?_ rfl
    fin_cases i <;> fin_cases l <;> fin_cases l' <;> fin_cases j <;> decide +kernel
  · intro i j
    refine noOverflow_of_sum (fun d => ?_) (by norm_num) ?_
    · rw [Matrix.mul_apply, coeff_sum]
      exact Finset.sum_nonneg fun l _ => coeff_mul_nonneg (absM_nonneg _ _ _) (absM_nonneg _ _ _) d
    · rw [Matrix.mul_apply, map_sum]
      have : ∀ l : Fin 2, eval (fun _ => 1) (f64TMat.absM 2 2 i l * f64XVec.absM 2 1 l j) ≤ 5 := by
        intro l
        rw [map_mul]
        have h1 := f64TMat_sum i l
        have h2 := f64XVec_sum l j
        have h3 : 0 ≤ eval (fun _ => 1) (f64XVec.absM 2 1 l j) := by
          rw [absM_eval]
          exact List.sum_nonneg fun x hx => by
            obtain ⟨y, -, rfl⟩ := List.mem_map.mp hx; exact abs_nonneg _
        nlinarith
      rw [Fin.sum_univ_two]
      exact (add_le_add (this 0) (this 1)).trans (le_trans (by norm_num) ten_le)

private theorem vec_fits (i : Fin 2) (j : Fin 1) : NoOverflow 1 (f64XVec.absM 2 1 i j + f64XVec.absM 2 1 i j) := by
  refine noOverflow_of_sum (coeff_add_nonneg (absM_nonneg _ _ _) (absM_nonneg _ _ _)) (by norm_num) ?_
  rw [map_add]
  have := f64XVec_sum i j
  exact (add_le_add this this).trans (le_trans (by norm_num) ten_le)

example : ∃ e, f64XVec.plus f64XVec = .ok e ∧ e.Rounded (degLE 1) 0 2
    (f64XVec.exactM 2 1 + f64XVec.exactM 2 1) (f64XVec.absM 2 1 + f64XVec.absM 2 1) := by
  obtain ⟨e, he⟩ := succeeds_spec (x := f64XVec.plus f64XVec) (by decide +kernel)
  exact ⟨e, he, plus_array_rounding (rearrFree_degLE_two.mono (degLE_mono (by norm_num))) (by norm_num)
    (by norm_num) f64XVec_rounded f64XVec_rounded vec_fits he⟩

example : ∃ e, f64XVec.minus f64XVec = .ok e ∧ e.Rounded (degLE 1) 0 2
    (f64XVec.exactM 2 1 - f64XVec.exactM 2 1) (f64XVec.absM 2 1 + f64XVec.absM 2 1) := by
  obtain ⟨e, he⟩ := succeeds_spec (x := f64XVec.minus f64XVec) (by decide +kernel)
  exact ⟨e, he, minus_array_rounding (rearrFree_degLE_two.mono (degLE_mono (by norm_num))) (by norm_num)
    (by norm_num) f64XVec_rounded f64XVec_rounded vec_fits he⟩

theorem tenth_rounded : (Scalar.k (.fin f64Tenth)).Rounded D 0 1 (Scalar.k (.fin f64Tenth)).exact.den
    (Scalar.k (.fin f64Tenth)).exact.absolute.den :=
  rounded_of_approx (approx_self trivial trivial (floatCheck_spec (by decide +kernel)) fun x =>
    List.count_le_length.trans (le_refl _))

theorem tenth_sum : eval (fun _ => 1) (Scalar.k (.fin f64Tenth)).exact.absolute.den ≤ 1 := by
  rw [absolute_eval]; decide +kernel

theorem tenth_pos : 0 ≤ eval (fun _ => 1) (Scalar.k (.fin f64Tenth)).exact.absolute.den := by
  rw [absolute_eval]; decide +kernel

/-- `[x, y] + 0.1`. -/
example : ∃ e, f64XVec.plus (.s (.k (.fin f64Tenth))) = .ok e ∧ e.Rounded (degLE 1) 0 2
    (Matrix.of fun i j => f64XVec.exactM 2 1 i j + (Scalar.k (.fin f64Tenth)).exact.den)
    (Matrix.of fun i j => f64XVec.absM 2 1 i j + (Scalar.k (.fin f64Tenth)).exact.absolute.den) := by
  obtain ⟨e, he⟩ := succeeds_spec (x := f64XVec.plus (.s (.k (.fin f64Tenth)))) (by decide +kernel)
  refine ⟨e, he, plus_scalar_rounding (rearrFree_degLE_two.mono (degLE_mono (by norm_num))) (by norm_num)
    (by norm_num) f64XVec_rounded tenth_rounded (fun i j => ?_) he⟩
  refine noOverflow_of_sum (coeff_add_nonneg (absM_nonneg _ _ _) (absolute_coeff_nonneg _)) (by norm_num) ?_
  rw [map_add]
  exact (add_le_add (f64XVec_sum i j) tenth_sum).trans (le_trans (by norm_num) ten_le)

/-- `[x, y] * 0.1`. -/
example : ∃ e, f64XVec.mul (.s (.k (.fin f64Tenth))) = .ok e ∧ e.Rounded (degLE (1 + 0)) 2 1
    (Matrix.of fun i j => f64XVec.exactM 2 1 i j * (Scalar.k (.fin f64Tenth)).exact.den)
    (Matrix.of fun i j => f64XVec.absM 2 1 i j * (Scalar.k (.fin f64Tenth)).exact.absolute.den) := by
  obtain ⟨e, he⟩ := succeeds_spec (x := f64XVec.mul (.s (.k (.fin f64Tenth)))) (by decide +kernel)
  refine ⟨e, he, mul_scalar_rounding (t := 1) (prodIn_degLE 1 0)
    (rearrFree_degLE_two.mono (degLE_mono (by norm_num))) ((degLE_mono (by norm_num)).trans degLE_two_flat)
    ((degLE_mono (by norm_num)).trans degLE_two_flat) (by norm_num) (by norm_num) f64XVec_rounded tenth_rounded
    ?_ (le_refl _) ?_ (fun i j => ?_) he⟩
  · intro i l; fin_cases i <;> fin_cases l <;> decide
  · intro i j
    refine normalCheck_spec (x := .ok (f64XVec.entryD i j)) ?_ rfl
    fin_cases i <;> fin_cases j <;> decide +kernel
  · refine noOverflow_of_sum (coeff_mul_nonneg (absM_nonneg _ _ _) (absolute_coeff_nonneg _)) (by norm_num) ?_
    rw [map_mul]
    refine le_trans ?_ ten_le
    have h1 := f64XVec_sum i j
    have h2 := tenth_sum
    have h3 := tenth_pos
    nlinarith

theorem var_rounded : (Scalar.var (f64Var 1)).Rounded (degLE 1) 0 1 (Scalar.var (f64Var 1)).exact.den
    (Scalar.var (f64Var 1)).exact.absolute.den :=
  rounded_of_approx (approx_self rfl (by
    show (Finsupp.single _ 1).sum (fun _ e => e) ≤ 1
    rw [Finsupp.sum_single_index rfl]) (floatCheck_spec (by decide +kernel)) fun x =>
    List.count_le_length.trans (le_refl _))

/-- `x * [x, y]`. -/
example : ∃ e, (Expr.s (.var (f64Var 1))).mul f64XVec = .ok e ∧ e.Rounded (degLE (1 + 1)) 2 1
    (Matrix.of fun i j => (Scalar.var (f64Var 1)).exact.den * f64XVec.exactM 2 1 i j)
    (Matrix.of fun i j => (Scalar.var (f64Var 1)).exact.absolute.den * f64XVec.absM 2 1 i j) := by
  obtain ⟨e, he⟩ := succeeds_spec (x := (Expr.s (.var (f64Var 1))).mul f64XVec) (by decide +kernel)
  refine ⟨e, he, scalar_mul_rounding (t := 1) (prodIn_degLE 1 1) rearrFree_degLE_two
    ((degLE_mono (by norm_num)).trans degLE_two_flat)
    ((degLE_mono (by norm_num)).trans degLE_two_flat) (by norm_num) (by norm_num) var_rounded
    f64XVec_rounded (le_refl _) ?_ ?_ (fun i j => ?_) he⟩
  · intro i l; fin_cases i <;> fin_cases l <;> decide
  · intro i j
    refine normalCheck_spec (x := .ok (Scalar.var (f64Var 1))) ?_ rfl
    fin_cases i <;> fin_cases j <;> decide +kernel
  · refine noOverflow_of_sum (coeff_mul_nonneg (absolute_coeff_nonneg _) (absM_nonneg _ _ _)) (by norm_num) ?_
    rw [map_mul, absolute_eval, show (Scalar.var (f64Var 1)).exact.absSum = 1 by decide +kernel, one_mul]
    exact (f64XVec_sum i j).trans (le_trans (by norm_num) ten_le)

end Verif
