import Verif.Lemmas.RoundPow
import Verif.Lemmas.Sound

/-!
# Rounding errors of vectors and matrices

The array code is followed in `Lemmas/Sound.lean` for an abstract meaning of scalars.  Here a meaning is an
exact polynomial `f`, a polynomial `g` that bounds the absolute values, a number `n` of roundings and a
number `k` of like terms: a scalar may still have like terms because some operations do not simplify.
-/

set_option linter.unusedSectionVars false

namespace Verif

open MvPolynomial

variable {R K : Type} [GoNum R] [Field K] [LinearOrder K] [IsStrictOrderedRing K]
variable {F : RoundModel R K}
variable {P : Var R → Prop} {D D' D1 D2 D3 : Set (ℕ →₀ ℕ)}

theorem terms_toPoly (s : Scalar R) : (Scalar.poly s.toPoly).terms = s.terms := by cases s <;> rfl

theorem terms_toMono {s : Scalar R} {m : Mono R} (h : s.toMono = .ok m) : (Scalar.mono m).terms = s.terms := by
  cases s <;> cases h <;> rfl

/-- `s` is within `n` roundings of `f`, and within `n + k - 1` once its like terms are added up, of which
there are at most `k` each. -/
def Near2 (F : RoundModel R K) (n k : ℕ) (f g : MvPolynomial ℕ K) (s : Scalar R) : Prop :=
  ∃ n' k', n' + k' ≤ n + k ∧ k' ≤ k ∧ KeysLe k' s.terms ∧ Appr F n' s.terms f g

theorem Near2.mono {n k n' k' : ℕ} {f g : MvPolynomial ℕ K} {s : Scalar R} (h : Near2 F n k f g s)
    (hn : n + k ≤ n' + k') (hk : k ≤ k') : Near2 F n' k' f g s := by
  obtain ⟨a, b, h1, h2, h3, h4⟩ := h
  exact ⟨a, b, by omega, by omega, h3, h4⟩

theorem Near2.of_terms {n k : ℕ} {f g : MvPolynomial ℕ K} {s t : Scalar R} (h : Near2 F n k f g s)
    (ht : t.terms = s.terms) : Near2 F n k f g t := by
  unfold Near2
  rw [ht]
  exact h

theorem Res.near2 {n : ℕ} {f g : MvPolynomial ℕ K} {s : Scalar R} (h : Res F P D n f g s) :
    Near2 F n 1 f g s := ⟨n, 1, le_refl _, le_refl _, h.tidy.keysLe, h.appr⟩

theorem Fits.le {n k : ℕ} {g h : MvPolynomial ℕ K} (hG : Fits F k h) (hn : n ≤ k) (hg : ∀ d, 0 ≤ coeff d g)
    (hle : ∀ d, coeff d g ≤ coeff d h) : Fits F n g := fun d => small_le hn (hg d) (hle d) (hG d)

/-- Collecting like terms. -/
theorem simp_near2 (hD : RearrFree D) {n k : ℕ} {f g : MvPolynomial ℕ K} {s : Scalar R} (hs : Good P D s)
    (h : Near2 F n k f g s) (hG : Fits F (n + k - 1) g) :
    Go.Ok s.asSimplified (Res F P D (n + k - 1) f g) := by
  obtain ⟨n', k', h1, h2, h3, h4⟩ := h
  have hk := h3.pos (Scalar.terms_ne hs)
  have hgn := h4.gnonneg
  cases s with
  | poly p =>
    have hfit : ∀ d, F.Small ((1 + F.u) ^ (k' - 1) * coeff d (aden F p.monos)) :=
      fits_of_le (n := n') (aden_nonneg _) h4.size (hG.le (by omega) hgn fun _ => le_refl _)
    refine (Poly.asSimplified_self (F := F) (P := P) hD (k := k' - 1) hs.1 h4.fin hs.2
      (by rwa [Nat.sub_add_cancel hk]) hfit).mono fun r hr => ⟨hr.good, hr.tidy, ?_⟩
    exact (hr.appr.trans (n := n') h4.err h4.le h4.size).weaken (by omega)
  | _ =>
    have hr : Res F P D n' f g _ := ⟨hs, tidy_single _, h4⟩
    exact (hr.weaken (by omega)).simp hD hG

/-- Sums. -/
theorem plus_near2 (hD : RearrFree D) {n1 k1 n2 k2 : ℕ} {f1 g1 f2 g2 : MvPolynomial ℕ K} {x y : Scalar R}
    (hx : Good P D x) (hy : Good P D y) (h1 : Near2 F n1 k1 f1 g1 x) (h2 : Near2 F n2 k2 f2 g2 y)
    (hG : Fits F (max n1 n2 + (k1 + k2) - 1) (g1 + g2)) :
    Go.Ok (x.plus y) (Near2 F (max n1 n2) (k1 + k2) (f1 + f2) (g1 + g2)) := by
  obtain ⟨n1', k1', a1, b1, c1, d1⟩ := h1
  obtain ⟨n2', k2', a2, b2, c2, d2⟩ := h2
  have p1 := c1.pos (Scalar.terms_ne hx)
  have p2 := c2.pos (Scalar.terms_ne hy)
  have e1 := d1.weaken (le_max_left n1' n2')
  have e2 := d2.weaken (le_max_right n1' n2')
  have hN : max n1' n2' + (k1' + k2' - 1) ≤ max n1 n2 + (k1 + k2) - 1 := by omega
  have nn : ∀ d, 0 ≤ coeff d (g1 + g2) := coeff_add_nonneg d1.gnonneg d2.gnonneg
  refine (Scalar.plus_appr (F := F) (P := P) hD ⟨hx, d1.fin, c1⟩ ⟨hy, d2.fin, c2⟩
    (fits_of_le (n := max n1' n2') (coeff_add_nonneg (aden_nonneg _) (aden_nonneg _)) (fun d => ?_)
      (hG.le hN nn fun _ => le_refl _))).mono fun r hr => ?_
  · rw [coeff_add, coeff_add, mul_add]
    exact add_le_add (e1.size d) (e2.size d)
  · exact ⟨_, 1, by omega, by omega, hr.tidy.keysLe, e1.plus e2 hr.appr⟩

/-- Terms put in front of others without collecting. -/
theorem cons_near2 {n1 k1 n2 k2 : ℕ} {f1 g1 f2 g2 : MvPolynomial ℕ K} {x y z : Scalar R}
    (hx : Good P D x) (hy : Good P D y) (h1 : Near2 F n1 k1 f1 g1 x) (h2 : Near2 F n2 k2 f2 g2 y)
    (hz : z.terms = x.terms ++ y.terms) :
    Near2 F (max n1 n2) (k1 + k2) (f1 + f2) (g1 + g2) z := by
  obtain ⟨n1', k1', a1, b1, c1, d1⟩ := h1
  obtain ⟨n2', k2', a2, b2, c2, d2⟩ := h2
  have p1 := c1.pos (Scalar.terms_ne hx)
  have p2 := c2.pos (Scalar.terms_ne hy)
  have e1 := d1.weaken (le_max_left n1' n2')
  have e2 := d2.weaken (le_max_right n1' n2')
  refine ⟨max n1' n2', k1' + k2', by omega, by omega, by rw [hz]; exact c1.append c2, ?_⟩
  have hf : FinL F z.terms := by rw [hz]; exact FinL.append d1.fin d2.fin
  have := appr_self (F := F) hf
  rw [hz, vden_append, aden_append] at this
  rw [hz]
  exact e1.plus e2 this

/-- The factor `-1`, on either side. -/
theorem neg_near2 {n k : ℕ} {f g : MvPolynomial ℕ K} {x : Scalar R} {o : Go (Scalar R)} (hx : Good P D x)
    (h : Near2 F n k f g x) (hG : Fits F (n + k - 1) g)
    (ho : ∀ k', KeysLe k' x.terms → Fits F (k' - 1) (ad F x) → Go.Ok o (Res F P D (k' - 1) (-vd F x) (ad F x))) :
    Go.Ok o (Near2 F n k (-f) g) := by
  obtain ⟨n', k', a, b, c, d⟩ := h
  have p := c.pos (Scalar.terms_ne hx)
  refine (ho k' c (fits_of_le (n := n') (aden_nonneg _) d.size (hG.le (by omega) d.gnonneg
    fun _ => le_refl _))).mono fun r hr => ⟨n' + (k' - 1), 1, by omega, by omega, hr.tidy.keysLe, ?_⟩
  refine hr.appr.trans (n := n') (fun e => ?_) (fun e => ?_) d.size
  · rw [coeff_neg, coeff_neg, neg_sub_neg, abs_sub_comm]
    exact d.err e
  · rw [coeff_neg, abs_neg]
    exact d.le e

/-! ## The meaning of an entry -/

/-- Exact value, bound, roundings, like terms, number of terms. -/
@[ext] structure RMean (K : Type) [Field K] where
  f : MvPolynomial ℕ K
  g : MvPolynomial ℕ K
  n : ℕ
  k : ℕ
  t : ℕ

noncomputable instance : AddCommMagma (RMean K) where
  add x y := ⟨x.f + y.f, x.g + y.g, max x.n y.n, x.k + y.k, 0⟩
  add_comm x y := RMean.ext (add_comm _ _) (add_comm _ _) (max_comm _ _) (Nat.add_comm _ _) rfl

noncomputable instance : Zero (RMean K) := ⟨⟨0, 0, 0, 1, 0⟩⟩

noncomputable instance : CommMagma (RMean K) where
  mul x y := ⟨x.f * y.f, x.g * y.g, (x.n + x.k) + (y.n + y.k) - 1 + max x.t y.t, 1, 0⟩
  mul_comm x y := RMean.ext (mul_comm _ _) (mul_comm _ _)
    (by
      show (x.n + x.k) + (y.n + y.k) - 1 + max x.t y.t = (y.n + y.k) + (x.n + x.k) - 1 + max y.t x.t
      rw [Nat.add_comm (x.n + x.k), max_comm]) rfl rfl

/-- `s` is well formed, and if nothing overflows it is within the roundings of the meaning `μ`. -/
def Mean (F : RoundModel R K) (P : Var R → Prop) (D : Set (ℕ →₀ ℕ)) (μ : RMean K) (s : Scalar R) : Prop :=
  (∀ d, |coeff d μ.f| ≤ coeff d μ.g) ∧ Good P D s ∧
    (Fits F (μ.n + μ.k - 1) μ.g → Near2 F μ.n μ.k μ.f μ.g s)

theorem Mean.nonneg {μ : RMean K} {s : Scalar R} (h : Mean F P D μ s) (d) : 0 ≤ coeff d μ.g :=
  (abs_nonneg _).trans (h.1 d)

theorem abs_add_le_of {f g f' g' : MvPolynomial ℕ K} (h : ∀ d, |coeff d f| ≤ coeff d g)
    (h' : ∀ d, |coeff d f'| ≤ coeff d g') (d) : |coeff d (f + f')| ≤ coeff d (g + g') := by
  rw [coeff_add, coeff_add]
  exact (abs_add_le _ _).trans (add_le_add (h d) (h' d))

theorem Go.Ok.both {α : Type} {x : Go α} {Q Q' : α → Prop} {p : Prop} (h : Go.Ok x Q) (h' : p → Go.Ok x Q') :
    Go.Ok x fun a => Q a ∧ (p → Q' a) := by
  obtain ⟨a, h1, h2⟩ := h
  refine ⟨a, h1, h2, fun hp => ?_⟩
  obtain ⟨b, h3, h4⟩ := h' hp
  rw [h1, Except.ok.injEq] at h3
  exact h3 ▸ h4

theorem Fits.left {n k : ℕ} {g h : MvPolynomial ℕ K} (hG : Fits F k (g + h)) (hn : n ≤ k)
    (hg : ∀ d, 0 ≤ coeff d g) (hh : ∀ d, 0 ≤ coeff d h) : Fits F n g :=
  hG.le hn hg fun d => by rw [coeff_add]; exact le_add_of_nonneg_right (hh d)

theorem stable_mean (hD : RearrFree D) (μ : RMean K) : Stable (Mean (R := R) F P D μ) where
  check _ h := h.2.1.check
  poly _ h := ⟨h.1, good_toPoly h.2.1, fun hG => (h.2.2 hG).of_terms (terms_toPoly _)⟩
  mono _ _ h hm := ⟨h.1, good_toMono h.2.1 hm, fun hG => (h.2.2 hG).of_terms (terms_toMono hm)⟩
  simp a h := ((Scalar.asSimplified_good h.2.1).both fun hG : Fits F (μ.n + μ.k - 1) μ.g =>
    simp_near2 hD h.2.1 (h.2.2 hG) hG).mono fun r hr => ⟨h.1, hr.1, fun hG => by
      obtain ⟨-, k', -, b, c, -⟩ := h.2.2 hG
      have := c.pos (Scalar.terms_ne h.2.1)
      exact (hr.2 hG).near2.mono (by omega) (by omega)⟩

theorem Mean.pos {μ : RMean K} {s : Scalar R} (h : Mean F P D μ s) (hG : Fits F (μ.n + μ.k - 1) μ.g) :
    1 ≤ μ.k := by
  obtain ⟨-, k', -, b, c, -⟩ := h.2.2 hG
  have := c.pos (Scalar.terms_ne h.2.1)
  omega

theorem fits_parts {μ ν : RMean K} (hμ : ∀ d, 0 ≤ coeff d μ.g) (hν : ∀ d, 0 ≤ coeff d ν.g)
    (hG : Fits F ((μ + ν).n + (μ + ν).k - 1) (μ + ν).g) :
    Fits F (μ.n + μ.k - 1) μ.g ∧ Fits F (ν.n + ν.k - 1) ν.g := by
  have e : (μ + ν).n = max μ.n ν.n := rfl
  have e' : (μ + ν).k = μ.k + ν.k := rfl
  have h' : Fits F ((μ + ν).n + (μ + ν).k - 1) (ν.g + μ.g) := by
    rw [add_comm ν.g]
    exact hG
  exact ⟨Fits.left (h := ν.g) hG (by omega) hμ hν, h'.left (by omega) hν hμ⟩

theorem near2_k {n : ℕ} {c : R} {x b : K} (h : Near F n c x b) : Near2 F n 1 (C x) (C b) (.k c) := by
  refine ⟨n, 1, le_refl _, le_refl _, (tidy_single _).keysLe, ?_⟩
  have := appr_of_ann (F := F) (A := [⟨kToMono c, n, x, b⟩]) (n := n)
    (by intro a ha; rw [List.mem_singleton.mp ha]; exact h) (by simp)
  simp only [List.map_cons, List.map_nil, fsum_cons, fsum_nil, gsum_cons, gsum_nil, add_zero] at this
  exact this

theorem plus_mean (hD : RearrFree D) {μ ν : RMean K} {x y : Scalar R} (hx : Mean F P D μ x) (hy : Mean F P D ν y) :
    Go.Ok (x.plus y) (Mean F P D (μ + ν)) :=
  ((Scalar.plus_good hx.2.1 hy.2.1).both fun hG =>
      plus_near2 hD hx.2.1 hy.2.1 (hx.2.2 (fits_parts hx.nonneg hy.nonneg hG).1)
        (hy.2.2 (fits_parts hx.nonneg hy.nonneg hG).2) hG).mono fun r hr =>
    ⟨abs_add_le_of hx.1 hy.1, hr.1, hr.2⟩

theorem scale_mean {μ : RMean K} {d : R} (h : Mean F P D μ (.k d)) : Mean F P D μ (.k (GoNum.mul d GoNum.one)) :=
  ⟨h.1, trivial, fun hG => by
    obtain ⟨n', k', a, b, c, e⟩ := h.2.2 hG
    obtain ⟨h1, h2⟩ := F.mul_one (x := d) (e.fin (kToMono d) (List.mem_singleton.mpr rfl))
    refine ⟨n', k', a, b, ?_, e.congr ?_ ?_ ?_⟩
    · have := c
      exact this
    · intro m hm
      rw [List.mem_singleton.mp hm]
      exact h1
    · show vden F [_] = vden F [_]
      rw [vden_single, vden_single]
      show monomial _ (F.val (GoNum.mul d GoNum.one)) = _
      rw [h2]; rfl
    · show aden F [_] = aden F [_]
      rw [aden_single, aden_single]
      show monomial _ |F.val (GoNum.mul d GoNum.one)| = _
      rw [h2]; rfl⟩

theorem addSem_round (hD : RearrFree D) : AddSem (Mean (R := R) F P D) where
  stable μ := stable_mean hD μ
  add hx hy := plus_mean hD hx hy
  scale h := scale_mean h
  num {μ ν x d} hx hd := by
    obtain ⟨r, h1, h2⟩ := plus_mean hD (scale_mean hd) hx
    cases h1
    rwa [add_comm] at h2
  cons {μ ν m p} hm hp := ⟨simplify_cons hm.2.1 hp.2.1, abs_add_le_of hm.1 hp.1,
    ⟨by simp, goodL_cons hm.2.1 hp.2.1⟩, fun hG =>
    cons_near2 hm.2.1 hp.2.1 (hm.2.2 (fits_parts hm.nonneg hp.nonneg hG).1)
      (hp.2.2 (fits_parts hm.nonneg hp.nonneg hG).2) rfl⟩

theorem zero_mean : Mean (R := R) F P D 0 (.k GoNum.zero) :=
  ⟨fun d => by show |coeff d (0 : MvPolynomial ℕ K)| ≤ coeff d 0; simp, trivial, fun _ => by
    have := near2_k (F := F) (n := 0) (c := GoNum.zero) (x := 0) (b := 0)
      ⟨F.zero.1, by rw [F.zero.2]; simp, by simp⟩
    rw [map_zero] at this
    exact this⟩

theorem zadd_mean {μ : RMean K} {x : Scalar R} (h : Mean F P D μ x) : Mean F P D (0 + μ) x := by
  have e1 : (0 + μ).f = μ.f := zero_add _
  have e2 : (0 + μ).g = μ.g := zero_add _
  have e3 : (0 + μ).n = μ.n := Nat.zero_max _
  have e4 : (0 + μ).k = 1 + μ.k := rfl
  refine ⟨by rw [e1, e2]; exact h.1, h.2.1, ?_⟩
  rw [e1, e2, e3, e4]
  exact fun hG => (h.2.2 (hG.le (by omega) h.nonneg fun _ => le_refl _)).mono (by omega) (by omega)

/-! ## Products -/

theorem KeysLe.degsLe {k : ℕ} {l : List (Mono R)} (h : KeysLe k l) (hg : GoodL P D l) (hD : D ⊆ flat) :
    DegsLe k l := by
  intro d
  by_cases hd : d ∈ l.map Mono.degs
  · obtain ⟨a, ha, rfl⟩ := List.mem_map.mp hd
    refine le_trans ?_ (h a.rkey)
    rw [List.count, List.count, List.countP_map, List.countP_map]
    refine List.countP_mono_left fun b hb hab => ?_
    have hab : b.degs = a.degs := by simpa using hab
    have hf : a.degs ∈ flat := by
      rcases (hg a ha).degs with h | h
      · rw [(hg a ha).canon.degs_eq_zero.mpr h]
        intro i hi
        simp at hi
      · exact hD h
    have hs := (shapeMatch_of_degs (hg a ha).canon (hg b hb).canon hf hab.symm).2.1
    have : b.rkey = a.rkey := Prod.ext hab hs.symm
    simpa using this
  · rw [List.count_eq_zero_of_not_mem hd]
    exact Nat.zero_le k

/-- A factor: its terms are counted, and its coefficients are in `C`. -/
def Factor (F : RoundModel R K) (P : Var R → Prop) (D : Set (ℕ →₀ ℕ)) (C : R → Prop) (μ : RMean K)
    (s : Scalar R) : Prop :=
  Good P D s ∧ Near2 F μ.n μ.k μ.f μ.g s ∧ s.terms.length ≤ μ.t ∧ ∀ m ∈ s.terms, C m.coeff

theorem abs_mul_le_of {f g f' g' : MvPolynomial ℕ K} (h : ∀ d, |coeff d f| ≤ coeff d g)
    (h' : ∀ d, |coeff d f'| ≤ coeff d g') (d) : |coeff d (f * f')| ≤ coeff d (g * g') := by
  classical
  rw [coeff_mul, coeff_mul]
  refine (Finset.abs_sum_le_sum_abs _ _).trans (Finset.sum_le_sum fun x _ => ?_)
  rw [abs_mul]
  exact mul_le_mul (h _) (h' _) (abs_nonneg _) ((abs_nonneg _).trans (h _))

variable {C1 C2 : R → Prop}

theorem mul_mean (h : ProdIn D1 D2 D3) (hD : RearrFree D3) (hD1 : D1 ⊆ flat) (hD2 : D2 ⊆ flat)
    (hC : ∀ c d, C1 c → C2 d → F.Normal (F.val c * F.val d)) {μ ν : RMean K} {x y : Scalar R}
    (hx : Factor F P D1 C1 μ x) (hy : Factor F P D2 C2 ν y) : Go.Ok (x.mul y) (Mean F P D3 (μ * ν)) := by
  obtain ⟨gx, ⟨n1, k1, a1, b1, c1, d1⟩, l1, p1⟩ := hx
  obtain ⟨gy, ⟨n2, k2, a2, b2, c2, d2⟩, l2, p2⟩ := hy
  have q1 := c1.pos (Scalar.terms_ne gx)
  have q2 := c2.pos (Scalar.terms_ne gy)
  have hr : mulRounds k1 k2 x y ≤ k1 + k2 - 1 + max μ.t ν.t := by
    have : 1 ≤ y.terms.length := List.length_pos_of_ne_nil (Scalar.terms_ne gy)
    unfold mulRounds
    split
    · rename_i p q
      have : q.monos.length ≤ ν.t := l2
      omega
    · omega
  refine ((Scalar.mul_good h gx gy).both (p := Fits F ((μ * ν).n + (μ * ν).k - 1) (μ * ν).g)
    (Q' := Near2 F (μ * ν).n (μ * ν).k (μ * ν).f (μ * ν).g) fun hG => ?_).mono
    fun r hr => ⟨abs_mul_le_of d1.le d2.le, hr.1, hr.2⟩
  have e3 : (μ * ν).n = (μ.n + μ.k) + (ν.n + ν.k) - 1 + max μ.t ν.t := rfl
  have e4 : (μ * ν).k = 1 := rfl
  have nn : ∀ d, 0 ≤ coeff d (μ.g * ν.g) := coeff_mul_nonneg d1.gnonneg d2.gnonneg
  have hG' : Fits F (n1 + n2 + mulRounds k1 k2 x y) (μ.g * ν.g) :=
    hG.le (by omega) nn fun _ => le_refl _
  refine (Scalar.mul_appr h hD ⟨gx, d1.fin, c1.degsLe gx.terms hD1⟩ ⟨gy, d2.fin, c2.degsLe gy.terms hD2⟩
    (fun m hm r hr => hC _ _ (p1 m hm) (p2 r hr)) (fits_of_le (n := n1 + n2)
      (coeff_mul_nonneg (aden_nonneg _) (aden_nonneg _)) (fun d => ?_) hG')).mono fun r hr => ?_
  · rw [pow_add]
    exact coeff_mul_le (aden_nonneg _) (aden_nonneg _) (le_trans zero_le_one (one_le_pow_u F n1)) d1.size d2.size d
  · exact ⟨_, 1, by omega, by omega, hr.tidy.keysLe, d1.mul d2 hr.appr⟩

theorem Factor.toPoly {C : R → Prop} {μ : RMean K} {x : Scalar R} (h : Factor F P D C μ x) :
    Factor F P D C μ (.poly x.toPoly) := by
  obtain ⟨h1, h2, h3, h4⟩ := h
  have e := terms_toPoly x
  exact ⟨good_toPoly h1, h2.of_terms e, by rwa [e], by rwa [e]⟩

theorem mulSem_round (h : ProdIn D1 D2 D3) (hD : RearrFree D3) (hD1 : D1 ⊆ flat) (hD2 : D2 ⊆ flat)
    (hC : ∀ c d, C1 c → C2 d → F.Normal (F.val c * F.val d)) :
    MulSem (Factor (R := R) F P D1 C1) (Factor F P D2 C2) (Mean F P D3) where
  left h := ⟨h.1.check, h.toPoly⟩
  right h := h.1.check
  sum := addSem_round hD
  zero := zero_mean
  zadd h := zadd_mean h
  mul hx hy := mul_mean h hD hD1 hD2 hC hx hy
  mul' hx hy := by
    rw [mul_comm]
    exact mul_mean h.symm hD hD2 hD1 (fun c d hc hd => by rw [mul_comm]; exact hC d c hd hc) hy hx
  num {μ ν x d} hx hd := by
    obtain ⟨r, h1, h2⟩ := mul_mean h.symm hD hD2 hD1 (fun c d hc hd => by rw [mul_comm]; exact hC d c hd hc) hd hx
    cases h1
    rwa [mul_comm] at h2
  mono {μ ν m d} hm hd := by
    obtain ⟨r, h1, h2⟩ := mul_mean h hD hD1 hD2 hC hm hd
    change m.mul (.k _) = _ at h1
    unfold Mono.mul at h1
    have hc : m.check = .ok () := hm.1.check
    rw [hc, Go.ok_bind] at h1
    cases h1
    exact h2

/-! ## Differences -/

/-- The same meanings, where a product is with `-1`. -/
def NMean (K : Type) [Field K] : Type := RMean K

noncomputable instance : AddCommMagma (NMean K) := inferInstanceAs (AddCommMagma (RMean K))
noncomputable instance : Zero (NMean K) := inferInstanceAs (Zero (RMean K))

noncomputable instance : CommMagma (NMean K) where
  mul x y := (⟨x.f * y.f, x.g * y.g, x.n + y.n, x.k * y.k, 0⟩ : RMean K)
  mul_comm _ _ := RMean.ext (mul_comm _ _) (mul_comm _ _) (Nat.add_comm _ _) (Nat.mul_comm _ _) rfl

/-- The meaning of `-1`. -/
noncomputable def negMean (K : Type) [Field K] : NMean K := (⟨-1, 1, 0, 1, 0⟩ : RMean K)

/-- The constant `-1`. -/
def IsNeg (κ : NMean K) (s : Scalar R) : Prop := κ = negMean K ∧ s = .k negOne

theorem neg_mean {μ : NMean K} {x : Scalar R} {o : Go (Scalar R)} (hx : Mean F P D μ x) (hg : Go.Ok o (Good P D))
    (ho : ∀ k', KeysLe k' x.terms → FinL F x.terms → Fits F (k' - 1) (ad F x) →
      Go.Ok o (Res F P D (k' - 1) (-vd F x) (ad F x))) :
    Go.Ok o (Mean F P D (μ * negMean K : NMean K)) := by
  have e1 : RMean.f (μ * negMean K : NMean K) = - RMean.f μ := by
    show RMean.f μ * -1 = _
    rw [mul_neg, _root_.mul_one]
  have e2 : RMean.g (μ * negMean K : NMean K) = RMean.g μ := _root_.mul_one _
  have e3 : RMean.n (μ * negMean K : NMean K) = RMean.n μ := rfl
  have e4 : RMean.k (μ * negMean K : NMean K) = RMean.k μ := Nat.mul_one _
  refine (hg.both (p := Fits F (RMean.n μ + RMean.k μ - 1) (RMean.g μ))
    (Q' := Near2 F (RMean.n μ) (RMean.k μ) (-RMean.f μ) (RMean.g μ)) fun hG =>
    neg_near2 hx.2.1 (hx.2.2 hG) hG fun k' hk => ho k' hk ?_).mono fun r hr => ⟨?_, hr.1, ?_⟩
  · obtain ⟨_, _, -, -, -, d⟩ := hx.2.2 hG
    exact d.fin
  · rw [e1, e2]
    intro d
    rw [coeff_neg, abs_neg]
    exact hx.1 d
  · rw [e1, e2, e3, e4]
    exact hr.2

theorem mulSem_neg (hD : RearrFree D) :
    MulSem (X := NMean K) (Mean (R := R) F P D) IsNeg (Mean F P D) where
  left h := ⟨h.2.1.check, (stable_mean hD _).poly _ h⟩
  right h := by rw [h.2]; rfl
  sum := addSem_round hD
  zero := zero_mean
  zadd h := zadd_mean h
  mul {μ κ x y} hx hy := by
    obtain ⟨rfl, rfl⟩ := hy
    exact neg_mean hx (Scalar.mul_good (prodIn_const D) hx.2.1 trivial) fun k' h1 h2 h3 =>
      Scalar.mulNeg_appr hD ⟨hx.2.1, h2, h1⟩ h3
  mul' {μ κ x y} hx hy := by
    obtain ⟨rfl, rfl⟩ := hy
    exact neg_mean hx (kMul_good _ hx.2.1) fun k' h1 h2 h3 => Scalar.negMul_appr hD ⟨hx.2.1, h2, h1⟩ h3
  num {μ κ x d} hx hd := by
    obtain ⟨rfl, hd⟩ := hd
    cases hd
    obtain ⟨r, h1, h2⟩ := neg_mean hx (kMul_good _ hx.2.1) fun k' h1 h2 h3 =>
      Scalar.negMul_appr hD ⟨hx.2.1, h2, h1⟩ h3
    cases h1
    exact h2
  mono {μ κ m d} hm hd := by
    obtain ⟨rfl, hd⟩ := hd
    cases hd
    obtain ⟨r, h1, h2⟩ := neg_mean hm (Scalar.mul_good (b := .k negOne) (prodIn_const D) hm.2.1 trivial) fun k' h1 h2 h3 =>
      Scalar.mulNeg_appr hD ⟨hm.2.1, h2, h1⟩ h3
    change m.mul (.k _) = _ at h1
    unfold Mono.mul at h1
    have hc : m.check = .ok () := hm.2.1.check
    rw [hc, Go.ok_bind] at h1
    cases h1
    exact h2

theorem isNeg : IsNeg (R := R) (negMean K) (.k negOne) := ⟨rfl, rfl⟩

end Verif
