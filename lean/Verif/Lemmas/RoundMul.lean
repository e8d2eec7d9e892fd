import Verif.Lemmas.RoundPlus

/-!
# Rounding errors of `Minus`, `Multiply` and `Power`
-/

set_option linter.unusedSectionVars false

namespace Verif

open MvPolynomial

variable {R K : Type} [GoNum R] [Field K] [LinearOrder K] [IsStrictOrderedRing K]
variable {F : RoundModel R K}
variable {P : Var R → Prop} {D D' D1 D2 D3 : Set (ℕ →₀ ℕ)}

/-! ## Approximations of sums and products -/

theorem Appr.plus {n k : ℕ} {la lb l : List (Mono R)} {f1 g1 f2 g2 : MvPolynomial ℕ K} (ha : Appr F n la f1 g1)
    (hb : Appr F n lb f2 g2) (h : Appr F k l (vden F la + vden F lb) (aden F la + aden F lb)) :
    Appr F (n + k) l (f1 + f2) (g1 + g2) := by
  refine h.trans (n := n) (fun d => ?_) (fun d => ?_) (fun d => ?_)
  · rw [coeff_add, coeff_add, coeff_add]
    have e1 := ha.err d
    have e2 := hb.err d
    have e3 := abs_add_le (coeff d (vden F la) - coeff d f1) (coeff d (vden F lb) - coeff d f2)
    rw [show coeff d (vden F la) - coeff d f1 + (coeff d (vden F lb) - coeff d f2) =
      coeff d (vden F la) + coeff d (vden F lb) - (coeff d f1 + coeff d f2) by ring] at e3
    linarith
  · rw [coeff_add, coeff_add]
    exact (abs_add_le _ _).trans (add_le_add (ha.le d) (hb.le d))
  · rw [coeff_add, coeff_add]
    have e1 := ha.size d
    have e2 := hb.size d
    linarith

theorem coeff_mul_nonneg {g h : MvPolynomial ℕ K} (hg : ∀ d, 0 ≤ coeff d g) (hh : ∀ d, 0 ≤ coeff d h) (d) :
    0 ≤ coeff d (g * h) := by
  classical
  rw [coeff_mul]
  exact Finset.sum_nonneg fun x _ => mul_nonneg (hg _) (hh _)

theorem coeff_mul_le {g h g' h' : MvPolynomial ℕ K} (hg : ∀ d, 0 ≤ coeff d g) (hh : ∀ d, 0 ≤ coeff d h)
    {s t : K} (hs : 0 ≤ s) (h1 : ∀ d, coeff d g ≤ s * coeff d g')
    (h2 : ∀ d, coeff d h ≤ t * coeff d h') (d) : coeff d (g * h) ≤ s * t * coeff d (g' * h') := by
  classical
  rw [coeff_mul, coeff_mul, Finset.mul_sum]
  refine Finset.sum_le_sum fun x _ => ?_
  have := mul_le_mul (h1 x.1) (h2 x.2) (hh x.2) ((hg x.1).trans (h1 x.1))
  calc _ ≤ s * coeff x.1 g' * (t * coeff x.2 h') := this
    _ = _ := by ring

theorem Appr.mul {n n' k : ℕ} {la lb l : List (Mono R)} {f1 g1 f2 g2 : MvPolynomial ℕ K}
    (ha : Appr F n la f1 g1) (hb : Appr F n' lb f2 g2)
    (h : Appr F k l (vden F la * vden F lb) (aden F la * aden F lb)) :
    Appr F (n + n' + k) l (f1 * f2) (g1 * g2) := by
  classical
  have hn := one_le_pow_u F n
  have hn' := one_le_pow_u F n'
  refine h.trans (n := n + n') (fun d => ?_) (fun d => ?_) (fun d => ?_)
  · rw [coeff_mul, coeff_mul, coeff_mul, ← Finset.sum_sub_distrib, Finset.mul_sum]
    refine (Finset.abs_sum_le_sum_abs _ _).trans (Finset.sum_le_sum fun x _ => ?_)
    have e1 := ha.err x.1
    have e2 := hb.err x.2
    have e3 : |coeff x.2 (vden F lb)| ≤ (1 + F.u) ^ n' * coeff x.2 g2 := by
      have := abs_add_le (coeff x.2 (vden F lb) - coeff x.2 f2) (coeff x.2 f2)
      rw [sub_add_cancel] at this
      have := hb.le x.2
      linarith
    have e4 : coeff x.1 (vden F la) * coeff x.2 (vden F lb) - coeff x.1 f1 * coeff x.2 f2 =
      (coeff x.1 (vden F la) - coeff x.1 f1) * coeff x.2 (vden F lb) +
        coeff x.1 f1 * (coeff x.2 (vden F lb) - coeff x.2 f2) := by ring
    rw [e4]
    refine (abs_add_le _ _).trans ?_
    rw [abs_mul, abs_mul]
    have h1 := mul_le_mul e1 e3 (abs_nonneg _) (mul_nonneg (sub_nonneg.mpr hn) (ha.gnonneg x.1))
    have h2 := mul_le_mul (ha.le x.1) e2 (abs_nonneg _) (ha.gnonneg x.1)
    calc _ ≤ ((1 + F.u) ^ n - 1) * coeff x.1 g1 * ((1 + F.u) ^ n' * coeff x.2 g2) +
          coeff x.1 g1 * (((1 + F.u) ^ n' - 1) * coeff x.2 g2) := add_le_add h1 h2
      _ = _ := by rw [pow_add]; ring
  · rw [coeff_mul, coeff_mul]
    refine (Finset.abs_sum_le_sum_abs _ _).trans (Finset.sum_le_sum fun x _ => ?_)
    rw [abs_mul]
    exact mul_le_mul (ha.le x.1) (hb.le x.2) (abs_nonneg _) (ha.gnonneg x.1)
  · rw [pow_add]
    exact coeff_mul_le (aden_nonneg _) (aden_nonneg _) (by linarith) ha.size hb.size d

/-! ## Terms with one exponent vector -/

/-- At most `k` terms have the same exponent vector. -/
def DegsLe (k : ℕ) (l : List (Mono R)) : Prop := ∀ d, (l.map Mono.degs).count d ≤ k

theorem DegsLe.keys {k : ℕ} {l : List (Mono R)} (h : DegsLe k l) : KeysLe k l := by
  intro x
  refine le_trans ?_ (h x.1)
  have := List.count_le_count_map (l := l.map Mono.rkey) (f := Prod.fst) (x := x)
  rw [List.map_map] at this
  exact this

theorem degsLe_single (m : Mono R) : DegsLe 1 [m] := by
  intro d
  simpa using List.count_le_length (l := [m.degs]) (a := d)

theorem DegsLe.pos {k : ℕ} {l : List (Mono R)} (h : DegsLe k l) (hne : l ≠ []) : 1 ≤ k := h.keys.pos hne

/-- On flat families results have no two terms with one exponent vector. -/
theorem TidyL.degsLe {l : List (Mono R)} (h : TidyL l) (hg : GoodL P D l) (hD : D ⊆ flat) : DegsLe 1 l := by
  intro d
  refine List.nodup_iff_count_le_one.mp ?_ d
  unfold TidyL at h
  rw [List.Nodup, List.pairwise_map] at h ⊢
  refine (List.Pairwise.and_mem.mp h).imp ?_
  rintro a b ⟨ha, hb, hab⟩ hd
  apply hab
  have hf : a.degs ∈ flat := by
    rcases (hg a ha).degs with h | h
    · rw [(hg a ha).canon.degs_eq_zero.mpr h]
      intro i hi
      simp at hi
    · exact hD h
  exact Prod.ext hd (shapeMatch_of_degs (hg a ha).canon (hg b hb).canon hf hd).2.1

/-- The products of the terms of `l` with one term. -/
theorem prod_ann {n : ℕ} {q : K} {e : ℕ →₀ ℕ} {l ms : List (Mono R)}
    (h : List.Forall₂ (fun m p => GoodM P D p ∧ p.degs = m.degs + e ∧
      Near F n p.coeff (F.val m.coeff * q) (|F.val m.coeff| * |q|)) l ms) :
    ∃ B : List (Ann R K), B.map (·.m) = ms ∧ (∀ b ∈ B, b.Ok F) ∧ (∀ b ∈ B, GoodM P D b.m) ∧ (∀ b ∈ B, b.n ≤ n) ∧
      fsum B = vden F l * monomial e q ∧ gsum B = aden F l * monomial e |q| := by
  induction h with
  | nil => exact ⟨[], rfl, by simp, by simp, by simp, by simp, by simp⟩
  | cons h _ ih =>
    rename_i m p l ms _
    obtain ⟨B, h1, h2, h3, h4, h5, h6⟩ := ih
    obtain ⟨hg, hd, hn⟩ := h
    refine ⟨⟨p, n, F.val m.coeff * q, |F.val m.coeff| * |q|⟩ :: B, by rw [List.map_cons, h1], ?_, ?_, ?_, ?_, ?_⟩
    · intro b hb
      rcases List.mem_cons.mp hb with rfl | hb
      · exact hn
      · exact h2 b hb
    · intro b hb
      rcases List.mem_cons.mp hb with rfl | hb
      · exact hg
      · exact h3 b hb
    · intro b hb
      rcases List.mem_cons.mp hb with rfl | hb
      · exact le_refl _
      · exact h4 b hb
    · rw [fsum_cons, h5, vden_cons, hd, add_mul, vterm, monomial_mul]
    · rw [gsum_cons, h6, aden_cons, hd, add_mul, aterm, monomial_mul]

theorem DegsLe.shift {k : ℕ} {e : ℕ →₀ ℕ} {l ms : List (Mono R)} (hk : DegsLe k l)
    (h : List.Forall₂ (fun m p => p.degs = m.degs + e) l ms) : DegsLe k ms := by
  have h1 : ms.map Mono.degs = (l.map Mono.degs).map (· + e) := by
    clear hk
    induction h with
    | nil => rfl
    | cons h _ ih => simp only [List.map_cons, h, ih]
  intro d
  rw [h1]
  by_cases hd : ∃ x, d = x + e
  · obtain ⟨x, rfl⟩ := hd
    have := List.count_map_of_injective (l.map Mono.degs) (· + e) (add_left_injective e) x
    rw [this]
    exact hk x
  · rw [List.count_eq_zero_of_not_mem]
    · exact Nat.zero_le _
    · intro hm
      obtain ⟨x, -, hx⟩ := List.mem_map.mp hm
      exact hd ⟨x, hx.symm⟩

theorem forall₂_imp {α β : Type} {Q Q' : α → β → Prop} {l : List α} {l' : List β} (h : List.Forall₂ Q l l')
    (hQ : ∀ a b, Q a b → Q' a b) : List.Forall₂ Q' l l' := by
  induction h with
  | nil => exact .nil
  | cons h _ ih => exact .cons (hQ _ _ h) ih

/-- The simplified products of the terms of `l` with one term. -/
theorem prod_appr (hD : RearrFree D) {n k : ℕ} {q : K} {e : ℕ →₀ ℕ} {l ms : List (Mono R)} (hne : l ≠ [])
    (hk : DegsLe k l) (h : List.Forall₂ (fun m p => GoodM P D p ∧ p.degs = m.degs + e ∧
      Near F n p.coeff (F.val m.coeff * q) (|F.val m.coeff| * |q|)) l ms)
    (hG : Fits F (n + (k - 1)) (aden F l * monomial e |q|)) :
    Go.Ok (Poly.asSimplified ⟨ms⟩)
      (Res F P D (n + (k - 1)) (vden F l * monomial e q) (aden F l * monomial e |q|)) := by
  obtain ⟨B, rfl, h2, h3, h4, h5, h6⟩ := prod_ann h
  have h7 := hk.shift (forall₂_imp h fun _ _ h => h.2.1)
  have h8 := hk.pos hne
  have hB : B ≠ [] := by
    rintro rfl
    have := h.length_eq
    simp only [List.map_nil, List.length_nil, List.length_eq_zero_iff] at this
    exact hne this
  have := Poly.asSimplified_appr (F := F) (P := P) hD (k := k - 1) (n0 := n) hB h2 h3 h4
    (h7.keys.mono (by omega)) (by rw [h6]; exact hG)
  rwa [h5, h6] at this

/-! ## The operations -/

/-- The operands of a product: well formed, finite coefficients, at most `k` terms with one exponent
vector. -/
structure DOpd (F : RoundModel R K) (P : Var R → Prop) (D : Set (ℕ →₀ ℕ)) (k : ℕ) (s : Scalar R) : Prop where
  good : Good P D s
  fin : FinL F s.terms
  degs : DegsLe k s.terms

theorem DOpd.opd {k : ℕ} {s : Scalar R} (h : DOpd F P D k s) : Opd F P D k s := ⟨h.good, h.fin, h.degs.keys⟩

theorem DOpd.pos {k : ℕ} {s : Scalar R} (h : DOpd F P D k s) : 1 ≤ k := h.opd.pos

theorem Res.dopd {n : ℕ} {f g : MvPolynomial ℕ K} {r : Scalar R} (h : Res F P D n f g r) (hD : D ⊆ flat) :
    DOpd F P D 1 r := ⟨h.good, h.appr.fin, h.tidy.degsLe h.good.terms hD⟩

theorem Res.set {n : ℕ} {f g : MvPolynomial ℕ K} {r : Scalar R} (h : Res F P D n f g r) (hD : D ⊆ D') :
    Res F P D' n f g r := ⟨h.good.weaken (fun _ h => h) hD, h.tidy, h.appr⟩

/-- The products of the coefficients do not underflow. -/
def NormalProds (F : RoundModel R K) (l l' : List (Mono R)) : Prop :=
  ∀ m ∈ l, ∀ r ∈ l', F.Normal (F.val m.coeff * F.val r.coeff)

theorem NormalProds.symm {l l' : List (Mono R)} (h : NormalProds F l l') : NormalProds F l' l :=
  fun m hm r hr => by rw [mul_comm]; exact h r hr m hm

theorem abs_le_aden {l : List (Mono R)} {m : Mono R} (hm : m ∈ l) : |F.val m.coeff| ≤ coeff m.degs (aden F l) := by
  induction l with
  | nil => simp at hm
  | cons a l ih =>
    rw [aden_cons, coeff_add]
    rcases List.mem_cons.mp hm with rfl | hm
    · rw [aterm, coeff_monomial, if_pos rfl]
      have := aden_nonneg (F := F) l m.degs
      linarith
    · have := ih hm
      have h2 : 0 ≤ coeff m.degs (aterm F a) := coeff_monomial_nonneg (abs_nonneg _)
      linarith

/-- A product of coefficients does not overflow. -/
theorem small_prod {n : ℕ} {l : List (Mono R)} {m : Mono R} {e : ℕ →₀ ℕ} {q : K} (hm : m ∈ l)
    (hG : Fits F n (aden F l * monomial e |q|)) : F.Small (F.val m.coeff * q) := by
  refine F.small_mono ?_ (hG (m.degs + e))
  rw [coeff_mul_monomial]
  have h1 := abs_le_aden (F := F) hm
  have h2 := one_le_pow_u F n
  have h3 : |F.val m.coeff * q| ≤ coeff m.degs (aden F l) * |q| := by
    rw [abs_mul]
    exact mul_le_mul_of_nonneg_right h1 (abs_nonneg _)
  refine h3.trans (le_trans ?_ (le_abs_self _))
  have h4 : 0 ≤ coeff m.degs (aden F l) * |q| := mul_nonneg (aden_nonneg _ _) (abs_nonneg _)
  nlinarith

section Single

variable {k kb : ℕ}

theorem Poly.mulK_appr (hD : RearrFree D) {p : Poly R} {c : R} (hp : DOpd F P D k (.poly p)) (hc : F.Fin c)
    (hN : NormalProds F p.monos [kToMono c]) (hG : Fits F k (ad F (.poly p) * ad F (.k c))) :
    Go.Ok (p.mulK c) (Res F P D k (vd F (.poly p) * vd F (.k c)) (ad F (.poly p) * ad F (.k c))) := by
  have hk := hp.pos
  have e1 : vd F (.k c) = monomial 0 (F.val c) := vden_single _
  have e2 : ad F (.k c) = monomial 0 |F.val c| := aden_single _
  rw [e1, e2]
  rw [e2] at hG
  unfold Poly.mulK
  rw [GoodL.check hp.good.1 hp.good.2, Go.ok_bind]
  have := prod_appr (F := F) (P := P) hD (n := 1) (k := k) (q := F.val c) (e := 0) (l := p.monos)
    (ms := p.monos.map (·.mulK c)) hp.good.1 hp.degs (by
      rw [List.forall₂_map_right_iff, List.forall₂_same]
      intro m hm
      exact ⟨Mono.mulK_good (hp.good.2 m hm) c, (add_zero _).symm,
        near_mul (hp.fin m hm) hc (small_prod hm hG) (hN m hm _ (List.mem_singleton.mpr rfl))⟩)
    (by rw [Nat.add_sub_cancel' hk]; exact hG)
  rwa [Nat.add_sub_cancel' hk] at this

theorem Poly.mulVar_appr (h : ProdIn D1 D2 D3) (hD : RearrFree D3) {p : Poly R} {v : Var R}
    (hp : DOpd F P D1 k (.poly p)) (hv : Good P D2 (.var v)) (hG : Fits F k (ad F (.poly p) * ad F (.var v))) :
    Go.Ok (p.mulVar v) (Res F P D3 k (vd F (.poly p) * vd F (.var v)) (ad F (.poly p) * ad F (.var v))) := by
  have hk := hp.pos
  have e1 : vd F (.var v) = monomial (Finsupp.single v.id 1) 1 := by
    show vden F [_] = _
    rw [vden_single, Var.toMono, Var.degs_one]
    show monomial (Finsupp.single v.id 1) (F.val GoNum.one) = _
    rw [F.one.2]
  have e2 : ad F (.var v) = monomial (Finsupp.single v.id 1) |1| := by
    show aden F [_] = _
    rw [aden_single, Var.toMono, Var.degs_one]
    show monomial (Finsupp.single v.id 1) |F.val GoNum.one| = _
    rw [F.one.2]
  rw [e1, e2]
  rw [e2] at hG
  unfold Poly.mulVar
  rw [GoodL.check hp.good.1 hp.good.2, hv.1.check, Go.ok_bind, Go.ok_bind]
  refine (prod_appr (F := F) (P := P) hD (n := 0) (k := k) (q := 1) (e := Finsupp.single v.id 1) (l := p.monos)
    (ms := p.monos.map (·.mulVar v)) hp.good.1 hp.degs (by
      rw [List.forall₂_map_right_iff, List.forall₂_same]
      intro m hm
      obtain ⟨-, h2, h3, -⟩ := Mono.mulVar_spec (hp.good.2 m hm).canon hv.1
      refine ⟨Mono.mulVar_good h (hp.good.2 m hm) hv, h2, ?_⟩
      rw [h3, mul_one, abs_one, mul_one]
      exact near_self (hp.fin m hm))
    (fun d => small_le (k := k) (by omega) ?_ (le_refl _) (hG d))).mono
    fun r hr => hr.weaken (k := k) (by omega)
  exact coeff_mul_nonneg (aden_nonneg _) (fun e => coeff_monomial_nonneg (abs_nonneg _)) d

theorem Poly.mulMono_appr (h : ProdIn D1 D2 D3) (hD : RearrFree D3) {p : Poly R} {r : Mono R}
    (hp : DOpd F P D1 k (.poly p)) (hr : GoodM P D2 r) (hrf : F.Fin r.coeff) (hN : NormalProds F p.monos [r])
    (hG : Fits F k (ad F (.poly p) * aden F [r])) :
    Go.Ok (p.mulMono r) (Res F P D3 k (vd F (.poly p) * vden F [r]) (ad F (.poly p) * aden F [r])) := by
  have hk := hp.pos
  rw [vden_single, aden_single]
  rw [aden_single] at hG
  unfold Poly.mulMono
  rw [GoodL.check hp.good.1 hp.good.2, hr.canon.check, Go.ok_bind, Go.ok_bind]
  refine (Go.mapM_ok _ (fun m q => GoodM P D3 q ∧ q.degs = m.degs + r.degs ∧
      Near F 1 q.coeff (F.val m.coeff * F.val r.coeff) (|F.val m.coeff| * |F.val r.coeff|)) p.monos
    (fun m hm => (Mono.mulMono_good h (hp.good.2 m hm) hr).mono (fun q hq => ⟨hq.1, hq.2.1, ?_⟩))).bind ?_
  · rw [hq.2.2]
    exact near_mul (hp.fin m hm) hrf (small_prod hm hG) (hN m hm r (List.mem_singleton.mpr rfl))
  · intro ms hms
    have := prod_appr (F := F) (P := P) hD hp.good.1 hp.degs hms
      (by rw [Nat.add_sub_cancel' hk]; exact hG)
    rwa [Nat.add_sub_cancel' hk] at this

/-- The product of two terms. -/
theorem single_res {n j : ℕ} {m r p : Mono R} (hg : GoodM P D p) (hd : p.degs = m.degs + r.degs)
    (hn : Near F j p.coeff (F.val m.coeff * F.val r.coeff) (|F.val m.coeff| * |F.val r.coeff|)) (hj : j ≤ n) :
    Res F P D n (vden F [m] * vden F [r]) (aden F [m] * aden F [r]) (.mono p) := by
  refine ⟨hg, tidy_single _, ?_⟩
  have := appr_of_ann (F := F) (A := [⟨p, j, F.val m.coeff * F.val r.coeff, |F.val m.coeff| * |F.val r.coeff|⟩])
    (n := n) (by intro a ha; rw [List.mem_singleton.mp ha]; exact hn) (by simpa using hj)
  simp only [List.map_cons, List.map_nil, fsum_cons, fsum_nil, gsum_cons, gsum_nil, add_zero] at this
  rw [vden_single, vden_single, aden_single, aden_single, monomial_mul, monomial_mul, ← hd]
  exact this

theorem fits_single {n : ℕ} {m r : Mono R} (hG : Fits F n (aden F [m] * aden F [r])) :
    F.Small (F.val m.coeff * F.val r.coeff) := by
  rw [aden_single r] at hG
  exact small_prod (List.mem_singleton.mpr rfl) hG

/-- `Monomial.Multiply`. -/
theorem Mono.mul_appr (h : ProdIn D1 D2 D3) (hD : RearrFree D3) {m : Mono R} {e : Scalar R}
    (hm : DOpd F P D1 k (.mono m)) (he : DOpd F P D2 kb e) (hN : NormalProds F [m] e.terms)
    (hG : Fits F (max k kb) (ad F (.mono m) * ad F e)) :
    Go.Ok (m.mul e) (Res F P D3 (max k kb) (vd F (.mono m) * vd F e) (ad F (.mono m) * ad F e)) := by
  have hk := hm.pos
  have hk1 : 1 ≤ max k kb := le_max_of_le_left hk
  have hgm : GoodM P D1 m := hm.good
  have hmf : F.Fin m.coeff := hm.fin _ (List.mem_singleton.mpr rfl)
  unfold Mono.mul
  rw [hgm.canon.check, he.good.check, Go.ok_bind, Go.ok_bind]
  cases e with
  | k c =>
    exact Go.ok_pure (single_res (r := kToMono c) ((Mono.mulK_good hgm c).weaken (fun _ h => h) h.left)
      (add_zero _).symm (near_mul hmf (he.fin _ (List.mem_singleton.mpr rfl)) (fits_single hG)
        (hN m (List.mem_singleton.mpr rfl) _ (List.mem_singleton.mpr rfl))) hk1)
  | var v =>
    obtain ⟨-, h2, h3, -⟩ := Mono.mulVar_spec hgm.canon he.good.1
    refine Go.ok_pure (single_res (j := 0) (r := v.toMono) (Mono.mulVar_good h hgm he.good) ?_ ?_ (Nat.zero_le _))
    · rw [h2, Var.toMono, Var.degs_one]; rfl
    · rw [h3]
      show Near F 0 m.coeff (F.val m.coeff * F.val GoNum.one) (|F.val m.coeff| * |F.val GoNum.one|)
      rw [F.one.2, mul_one, abs_one, mul_one]
      exact near_self hmf
  | mono r =>
    refine (Mono.mulMono_good h hgm he.good).bind (fun q hq => Go.ok_pure (single_res hq.1 hq.2.1 ?_ hk1))
    rw [hq.2.2]
    exact near_mul hmf (he.fin _ (List.mem_singleton.mpr rfl)) (fits_single hG)
      (hN m (List.mem_singleton.mpr rfl) _ (List.mem_singleton.mpr rfl))
  | poly p =>
    rw [mul_comm (vd F _), mul_comm (ad F _)]
    rw [mul_comm (ad F _)] at hG
    refine (Poly.mulMono_appr h.symm hD he hgm hmf hN.symm fun d => small_le (le_max_right k kb) ?_ (le_refl _)
      (hG d)).mono fun r hr => hr.weaken (le_max_right _ _)
    exact coeff_mul_nonneg (aden_nonneg _) (aden_nonneg _) d

/-- `Variable.Multiply`. -/
theorem Var.mul_appr (h : ProdIn D1 D2 D3) (hD : RearrFree D3) {v : Var R} {e : Scalar R}
    (hv : DOpd F P D1 k (.var v)) (he : DOpd F P D2 kb e) (hN : NormalProds F [v.toMono] e.terms)
    (hG : Fits F (max k kb) (ad F (.var v) * ad F e)) :
    Go.Ok (v.mul e) (Res F P D3 (max k kb) (vd F (.var v) * vd F e) (ad F (.var v) * ad F e)) := by
  have hk := hv.pos
  have hk1 : 1 ≤ max k kb := le_max_of_le_left hk
  have hgv : GoodM P D1 v.toMono := hv.opd.vMono.good
  unfold Var.mul
  rw [hv.good.1.check, he.good.check, Go.ok_bind, Go.ok_bind]
  cases e with
  | k c =>
    simp only [Go.pure_eq, Go.ok_bind]
    refine Res.simp hD ?_ hG
    refine single_res (m := v.toMono) (r := kToMono c) (j := 0)
      (goodM_var hv.good.1 hv.good.2.1 (h.left hv.good.2.2) c) ?_ ?_ (Nat.zero_le _)
    · rw [Var.degs_one, Var.toMono, Var.degs_one]; exact (add_zero _).symm
    · show Near F 0 c (F.val GoNum.one * F.val c) (|F.val GoNum.one| * |F.val c|)
      rw [F.one.2, one_mul, abs_one, one_mul]
      exact near_self (he.fin _ (List.mem_singleton.mpr rfl))
  | var w =>
    have hone : Near F 0 (GoNum.one : R) (F.val GoNum.one * F.val GoNum.one)
        (|F.val GoNum.one| * |F.val GoNum.one|) := by
      rw [F.one.2]
      refine ⟨F.one.1, ?_, ?_⟩ <;> simp [F.one.2]
    simp only [Go.pure_eq, Go.ok_bind]
    split
    · rename_i e
      refine Res.simp hD ?_ hG
      refine single_res (m := v.toMono) (r := w.toMono) (goodM_two h hv.good he.good e) ?_ hone (Nat.zero_le _)
      rw [Var.degs_one, Var.toMono, Var.degs_one, Var.toMono, Var.degs_one, e]
      exact single_two v.id
    · rename_i e
      refine Res.simp hD ?_ hG
      refine single_res (m := v.toMono) (r := w.toMono) (goodM_vw h hv.good he.good e) ?_ hone (Nat.zero_le _)
      rw [Var.toMono, Var.degs_one, Var.toMono, Var.degs_one]
      simp [Mono.degs]
  | mono m =>
    rw [mul_comm (vd F _), mul_comm (ad F _), max_comm]
    rw [mul_comm (ad F _), max_comm] at hG
    exact (Mono.mul_appr h.symm hD he hv hN.symm hG).bind fun r hr => hr.simp hD hG
  | poly p =>
    rw [mul_comm (vd F _), mul_comm (ad F _)]
    rw [mul_comm (ad F _)] at hG
    refine (Poly.mulVar_appr h.symm hD he hv.good fun d => small_le (le_max_right k kb) ?_ (le_refl _)
      (hG d)).bind fun r hr => (hr.weaken (le_max_right _ _)).simp hD hG
    exact coeff_mul_nonneg (aden_nonneg _) (aden_nonneg _) d

end Single

section Products

variable {ka kb : ℕ}

/-- `Polynomial.Multiply(Polynomial)`. -/
theorem Poly.mulPoly_appr (h : ProdIn D1 D2 D3) (hD : RearrFree D3) {p q : Poly R}
    (hp : DOpd F P D1 ka (.poly p)) (hq : DOpd F P D2 kb (.poly q)) (hN : NormalProds F p.monos q.monos)
    (hG : Fits F (ka + q.monos.length) (ad F (.poly p) * ad F (.poly q))) :
    Go.Ok (p.mulPoly q) (Res F P D3 (ka + q.monos.length) (vd F (.poly p) * vd F (.poly q))
      (ad F (.poly p) * ad F (.poly q))) := by
  unfold Poly.mulPoly
  rw [GoodL.check hp.good.1 hp.good.2, GoodL.check hq.good.1 hq.good.2, Go.ok_bind, Go.ok_bind]
  refine (Go.foldlM_ok' _ (fun pre acc => Res F P D3 (ka + pre.length) (vden F p.monos * vden F pre)
    (aden F p.monos * aden F pre) acc) q.monos (Scalar.k GoNum.zero) ?_ ?_).bind fun r hr => hr.simp hD hG
  · refine ⟨trivial, tidy_single _, ?_⟩
    have h0 : vden F [kToMono (GoNum.zero : R)] = 0 := by
      rw [vden_single]; show monomial _ (F.val GoNum.zero) = 0; rw [F.zero.2, map_zero]
    have h1 : aden F [kToMono (GoNum.zero : R)] = 0 := by
      rw [aden_single]; show monomial _ |F.val GoNum.zero| = 0; rw [F.zero.2, abs_zero, map_zero]
    have := (appr_self (F := F) (l := [kToMono (GoNum.zero : R)]) (by
      intro m hm; rw [List.mem_singleton.mp hm]; exact F.zero.1)).weaken (Nat.zero_le (ka + ([] : List (Mono R)).length))
    rw [h0, h1] at this
    rw [vden_nil, aden_nil, mul_zero, mul_zero]
    exact this
  · rintro pre r acc ⟨post, hpost⟩ hacc
    have hrq : r ∈ q.monos := by rw [hpost]; simp
    have hlen : pre.length + 1 ≤ q.monos.length := by rw [hpost]; simp
    have hgr := hq.good.2 r hrq
    have hprod_le : ∀ d, coeff d (aden F p.monos * aden F pre + aden F p.monos * aden F [r]) ≤
        coeff d (ad F (.poly p) * ad F (.poly q)) := by
      intro d
      have e1 : ad F (.poly q) = aden F pre + aden F [r] + aden F post := by
        show aden F q.monos = _
        rw [hpost, aden_append, aden_cons, aden_cons, aden_nil]; ring
      rw [e1, mul_add, mul_add, coeff_add _ _ (_ * aden F post)]
      have : 0 ≤ coeff d (ad F (.poly p) * aden F post) :=
        coeff_mul_nonneg (aden_nonneg (F := F) p.monos) (aden_nonneg (F := F) post) d
      have h2 : coeff d (aden F p.monos * aden F pre + aden F p.monos * aden F [r]) =
        coeff d (ad F (.poly p) * aden F pre + ad F (.poly p) * aden F [r]) := rfl
      rw [h2]
      linarith
    have nn1 : ∀ d, 0 ≤ coeff d (aden F p.monos * aden F pre) :=
      coeff_mul_nonneg (aden_nonneg _) (aden_nonneg _)
    have nn2 : ∀ d, 0 ≤ coeff d (aden F p.monos * aden F [r]) :=
      coeff_mul_nonneg (aden_nonneg _) (aden_nonneg _)
    refine (Poly.mulMono_appr h hD hp hgr (hq.fin r hrq) (fun m hm x hx => by
      rw [List.mem_singleton.mp hx]; exact hN m hm r hrq) fun d => small_le (by omega) (nn2 d) ?_ (hG d)).bind ?_
    · have := hprod_le d
      rw [coeff_add] at this
      have := nn1 d
      show coeff d (aden F p.monos * aden F [r]) ≤ _
      linarith
    · intro s hs
      have hs' := hs.weaken (Nat.le_add_right ka pre.length)
      have hfit : Fits F (1 + 1 - 1) (ad F acc + ad F s) := by
        intro d
        have e1 := hacc.appr.size d
        have e2 := hs'.appr.size d
        have e3 := hprod_le d
        rw [coeff_add] at e3
        have e4 : coeff d (ad F acc + ad F s) ≤ (1 + F.u) ^ (ka + pre.length) *
            coeff d (ad F (.poly p) * ad F (.poly q)) := by
          rw [coeff_add]
          have e5 := le_trans zero_le_one (one_le_pow_u F (ka + pre.length))
          have e6 := mul_le_mul_of_nonneg_left e3 e5
          have e7 : coeff d (ad F (.poly p) * aden F [r]) = coeff d (aden F p.monos * aden F [r]) := rfl
          rw [e7] at e2
          have e8 : coeff d (ad F acc) = coeff d (aden F acc.terms) := rfl
          have e9 : coeff d (ad F s) = coeff d (aden F s.terms) := rfl
          rw [e8, e9]
          linarith
        have e5 : 0 ≤ coeff d (ad F acc + ad F s) := by
          rw [coeff_add]; exact add_nonneg (aden_nonneg _ _) (aden_nonneg _ _)
        have e6 := mul_le_mul_of_nonneg_left e4 (le_trans zero_le_one (one_le_pow_u F 1))
        rw [← mul_assoc, ← pow_add] at e6
        refine small_le' (n := 1 + (ka + pre.length)) (mul_nonneg (le_trans zero_le_one (one_le_pow_u F _)) e5) e6 ?_
        exact small_le (by omega) ((add_nonneg (nn1 d) (nn2 d)).trans (by rw [← coeff_add]; exact hprod_le d))
          (le_refl _) (hG d)
      refine (Scalar.plus_appr hD hacc.opd hs'.opd hfit).mono fun t ht => ⟨ht.good, ht.tidy, ?_⟩
      have := hacc.appr.plus hs'.appr ht.appr
      rw [vden_append, aden_append, mul_add, mul_add, List.length_append, ← add_assoc]
      exact this

/-- The number of roundings in a product. -/
def mulRounds (ka kb : ℕ) : Scalar R → Scalar R → ℕ
  | .poly _, .poly q => ka + q.monos.length
  | _, _ => max ka kb

theorem Poly.mul_appr (h : ProdIn D1 D2 D3) (hD : RearrFree D3) {p : Poly R} {e : Scalar R}
    (hp : DOpd F P D1 ka (.poly p)) (he : DOpd F P D2 kb e) (hN : NormalProds F p.monos e.terms)
    (hG : Fits F (mulRounds ka kb (.poly p) e) (ad F (.poly p) * ad F e)) :
    Go.Ok (p.mul e) (Res F P D3 (mulRounds ka kb (.poly p) e) (vd F (.poly p) * vd F e)
      (ad F (.poly p) * ad F e)) := by
  have nn : ∀ d, 0 ≤ coeff d (ad F (.poly p) * ad F e) := coeff_mul_nonneg (aden_nonneg _) (aden_nonneg _)
  cases e with
  | k c =>
    exact (Poly.mulK_appr (hD.mono h.left) hp (he.fin _ (List.mem_singleton.mpr rfl)) hN
      fun d => small_le (le_max_left ka kb) (nn d) (le_refl _) (hG d)).mono
      fun r hr => (hr.weaken (le_max_left _ _)).set h.left
  | var v =>
    exact (Poly.mulVar_appr h hD hp he.good fun d => small_le (le_max_left ka kb) (nn d) (le_refl _) (hG d)).mono
      fun r hr => hr.weaken (le_max_left _ _)
  | mono m =>
    exact (Poly.mulMono_appr h hD hp he.good (he.fin _ (List.mem_singleton.mpr rfl)) hN
      fun d => small_le (le_max_left ka kb) (nn d) (le_refl _) (hG d)).mono fun r hr => hr.weaken (le_max_left _ _)
  | poly q => exact Poly.mulPoly_appr h hD hp he hN hG

/-- `Multiply`. -/
theorem Scalar.mul_appr (h : ProdIn D1 D2 D3) (hD : RearrFree D3) {a b : Scalar R}
    (ha : DOpd F P D1 ka a) (hb : DOpd F P D2 kb b) (hN : NormalProds F a.terms b.terms)
    (hG : Fits F (mulRounds ka kb a b) (ad F a * ad F b)) :
    Go.Ok (a.mul b) (Res F P D3 (mulRounds ka kb a b) (vd F a * vd F b) (ad F a * ad F b)) := by
  have hka := ha.pos
  have hkb := hb.pos
  have nn : ∀ d, 0 ≤ coeff d (ad F a * ad F b) := coeff_mul_nonneg (aden_nonneg _) (aden_nonneg _)
  cases a with
  | k c =>
    have hcf : F.Fin c := ha.fin _ (List.mem_singleton.mpr rfl)
    have ha' : DOpd F P ∅ ka (.k c) := ⟨trivial, ha.fin, ha.degs⟩
    show Go.Ok (kMul c b) _
    unfold kMul
    rw [hb.good.check, Go.ok_bind]
    cases b with
    | k d =>
      have hdf : F.Fin d := hb.fin _ (List.mem_singleton.mpr rfl)
      have := single_res (F := F) (P := P) (D := D3) (n := max ka kb) (m := kToMono c) (r := kToMono d)
        (p := kToMono (GoNum.mul c d)) (goodM_const _) (add_zero _).symm
        (near_mul hcf hdf (fits_single hG) (hN _ (List.mem_singleton.mpr rfl) _ (List.mem_singleton.mpr rfl)))
        (le_max_of_le_left hka)
      exact Go.ok_pure ⟨trivial, this.tidy, this.appr⟩
    | var v =>
      rw [mul_comm (vd F _), mul_comm (ad F _)]
      rw [mul_comm (ad F _)] at hG
      show Go.Ok _ (Res F P D3 (max ka kb) _ _)
      rw [max_comm]
      exact (Var.mul_appr (prodIn_const D2) (hD.mono h.right) hb ha' hN.symm
        (by rw [max_comm]; exact hG)).mono fun r hr => hr.set h.right
    | mono m =>
      rw [mul_comm (vd F _), mul_comm (ad F _)]
      rw [mul_comm (ad F _)] at hG
      show Go.Ok _ (Res F P D3 (max ka kb) _ _)
      rw [max_comm]
      exact (Mono.mul_appr (prodIn_const D2) (hD.mono h.right) hb ha' hN.symm
        (by rw [max_comm]; exact hG)).mono fun r hr => hr.set h.right
    | poly p =>
      rw [mul_comm (vd F _), mul_comm (ad F _)]
      rw [mul_comm (ad F _)] at hG nn
      exact (Poly.mulK_appr (hD.mono h.right) hb hcf hN.symm
        fun d => small_le (le_max_right ka kb) (nn d) (le_refl _) (hG d)).mono
        fun r hr => (hr.weaken (le_max_right _ _)).set h.right
  | var v => exact Var.mul_appr h hD ha hb hN hG
  | mono m => exact Mono.mul_appr h hD ha hb hN hG
  | poly p => exact Poly.mul_appr h hD ha hb hN hG

end Products

/-! ## Minus -/

/-- Changing the signs rounds nothing. -/
theorem Scalar.mulNeg_appr (hD : RearrFree D) {k : ℕ} {b : Scalar R} (hb : Opd F P D k b)
    (hG : Fits F (k - 1) (ad F b)) : Go.Ok (b.mul (.k negOne)) (Res F P D (k - 1) (-vd F b) (ad F b)) := by
  have hk := hb.pos
  have hsingle : ∀ m : Mono R, GoodM P D m → F.Fin m.coeff →
      Res F P D (k - 1) (-vden F [m]) (aden F [m]) (.mono (m.mulK negOne)) := by
    intro m hm hf
    refine ⟨Mono.mulK_good hm _, tidy_single _, ?_⟩
    have := appr_of_ann (F := F) (A := [⟨m.mulK negOne, 0, -F.val m.coeff, |F.val m.coeff|⟩]) (n := k - 1)
      (by intro a ha; rw [List.mem_singleton.mp ha]; exact near_neg hf) (by simp)
    simp only [List.map_cons, List.map_nil, fsum_cons, fsum_nil, gsum_cons, gsum_nil, add_zero] at this
    rw [vden_single, aden_single, ← map_neg]
    exact this
  cases b with
  | k d =>
    have := hsingle (kToMono d) (goodM_const d) (hb.fin _ (List.mem_singleton.mpr rfl))
    exact Go.ok_pure ⟨trivial, this.tidy, this.appr⟩
  | mono m =>
    have hgm : GoodM P D m := hb.good
    show Go.Ok (m.mul (.k negOne)) _
    unfold Mono.mul
    rw [hgm.canon.check, Go.ok_bind]
    exact Go.ok_pure (hsingle m hgm (hb.fin _ (List.mem_singleton.mpr rfl)))
  | var v =>
    show Go.Ok (v.mul (.k negOne)) _
    unfold Var.mul
    rw [hb.good.1.check, Go.ok_bind]
    show Go.Ok (Scalar.asSimplified (.mono ⟨negOne, [1], [v]⟩)) _
    refine Res.simp hD ?_ hG
    refine ⟨goodM_var hb.good.1 hb.good.2.1 hb.good.2.2 _, tidy_single _, ?_⟩
    have := appr_of_ann (F := F) (A := [⟨⟨negOne, [1], [v]⟩, 0, -1, 1⟩]) (n := k - 1) (by
      intro a ha
      rw [List.mem_singleton.mp ha]
      exact ⟨F.neg_one.1, by simp [F.neg_one.2], by simp⟩) (by simp)
    simp only [List.map_cons, List.map_nil, fsum_cons, fsum_nil, gsum_cons, gsum_nil, add_zero] at this
    have e1 : vd F (.var v) = monomial v.toMono.degs 1 := by
      show vden F [_] = _
      rw [vden_single]; show monomial _ (F.val GoNum.one) = _; rw [F.one.2]
    have e2 : ad F (.var v) = monomial v.toMono.degs 1 := by
      show aden F [_] = _
      rw [aden_single]; show monomial _ |F.val GoNum.one| = _; rw [F.one.2, abs_one]
    rw [e1, e2, ← map_neg]
    exact this
  | poly p =>
    show Go.Ok (p.mulK negOne) _
    unfold Poly.mulK
    rw [GoodL.check hb.good.1 hb.good.2, Go.ok_bind]
    have hms : List.Forall₂ (fun m q => GoodM P D q ∧ q.degs = m.degs + 0 ∧
        Near F 0 q.coeff (F.val m.coeff * -1) (|F.val m.coeff| * |(-1 : K)|)) p.monos
        (p.monos.map (·.mulK negOne)) := by
      rw [List.forall₂_map_right_iff, List.forall₂_same]
      intro m hm
      refine ⟨Mono.mulK_good (hb.good.2 m hm) _, (add_zero _).symm, ?_⟩
      rw [mul_neg_one, abs_neg, abs_one, mul_one]
      exact near_neg (hb.fin m hm)
    obtain ⟨B, h1, h2, h3, h4, h5, h6⟩ := prod_ann hms
    have hB : B ≠ [] := by
      rintro rfl
      have := hb.good.1
      simp only [List.map_nil] at h1
      exact this (List.map_eq_nil_iff.mp h1.symm)
    have e1 : fsum B = -vd F (.poly p) := by
      rw [h5, show (monomial 0 (-1 : K) : MvPolynomial ℕ K) = -1 by rw [map_neg]; rfl]
      show vden F p.monos * -1 = _
      rw [mul_neg_one]; rfl
    have e2 : gsum B = ad F (.poly p) := by
      rw [h6, abs_neg, abs_one, show (monomial 0 (1 : K) : MvPolynomial ℕ K) = 1 from rfl, mul_one]; rfl
    have := Poly.asSimplified_appr (F := F) (P := P) hD (k := k - 1) (n0 := 0) hB h2 h3 h4 (by
      rw [h1, Nat.sub_add_cancel hk]
      intro x
      have := hb.keys x
      rw [List.map_map]
      exact this) (by rw [e2, Nat.zero_add]; exact hG)
    rw [h1, e1, e2, Nat.zero_add] at this
    exact this

theorem Scalar.neg_appr (hD : RearrFree D) {k : ℕ} {b : Scalar R} (hb : Opd F P D k b)
    (hG : Fits F (k - 1) (ad F b)) : Go.Ok (b.mulF64 negOne) (Res F P D (k - 1) (-vd F b) (ad F b)) := by
  have h := Scalar.mulNeg_appr hD hb hG
  cases b with
  | k d => exact h
  | mono m => exact h
  | var v => exact h.bind fun r hr => hr.simp hD hG
  | poly p => exact h.bind fun r hr => hr.simp hD hG

/-- The factor `-1` on the left. -/
theorem Scalar.negMul_appr (hD : RearrFree D) {k : ℕ} {b : Scalar R} (hb : Opd F P D k b)
    (hG : Fits F (k - 1) (ad F b)) : Go.Ok ((Scalar.k negOne).mul b) (Res F P D (k - 1) (-vd F b) (ad F b)) := by
  have h := Scalar.mulNeg_appr hD hb hG
  show Go.Ok (kMul negOne b) _
  unfold kMul
  rw [hb.good.check, Go.ok_bind]
  cases b with
  | k d =>
    obtain ⟨h1, h2⟩ := F.neg_mul (x := d) (hb.fin (kToMono d) (List.mem_singleton.mpr rfl))
    have := appr_of_ann (F := F) (A := [⟨kToMono (GoNum.mul negOne d), 0, -F.val d, |F.val d|⟩]) (n := k - 1)
      (by
        intro a ha
        rw [List.mem_singleton.mp ha]
        exact ⟨h1, by
          show |F.val (GoNum.mul negOne d) - -F.val d| ≤ _
          rw [h2]; simp, by rw [abs_neg]⟩) (by simp)
    simp only [List.map_cons, List.map_nil, fsum_cons, fsum_nil, gsum_cons, gsum_nil, add_zero] at this
    refine Go.ok_pure ⟨trivial, tidy_single _, ?_⟩
    show Appr F (k - 1) [kToMono (GoNum.mul negOne d)] (-vden F [kToMono d]) (aden F [kToMono d])
    rw [vden_single, aden_single, ← map_neg]
    exact this
  | mono m => exact h
  | var v => exact h
  | poly p => exact h

/-- `Minus`. -/
theorem Scalar.minus_appr (hD : RearrFree D) {ka kb : ℕ} {a b : Scalar R} (ha : Opd F P D ka a)
    (hb : Opd F P D kb b) (hG : Fits F (ka + kb - 1) (ad F a + ad F b)) :
    Go.Ok (a.minus b) (Res F P D (ka + kb - 1) (vd F a - vd F b) (ad F a + ad F b)) := by
  have hka := ha.pos
  have hkb := hb.pos
  unfold Scalar.minus
  rw [ha.good.check, hb.good.check, Go.ok_bind, Go.ok_bind]
  refine (Scalar.neg_appr hD hb fun d => small_le (by omega) (aden_nonneg _ d) ?_ (hG d)).bind ?_
  · rw [coeff_add]
    have := aden_nonneg (F := F) a.terms d
    show coeff d (ad F b) ≤ coeff d (aden F a.terms) + _
    linarith
  · intro nb hnb
    have hself := (appr_self ha.fin).weaken (Nat.zero_le (kb - 1))
    have e0 : kb - 1 + (ka + 1 - 1) = ka + kb - 1 := by omega
    have hfit : Fits F (ka + 1 - 1) (ad F a + ad F nb) := by
      intro d
      have e1 := hnb.appr.size d
      have e2 := hself.size d
      have e4 : coeff d (ad F a + ad F nb) ≤ (1 + F.u) ^ (kb - 1) * coeff d (ad F a + ad F b) := by
        rw [coeff_add, coeff_add, mul_add]
        exact add_le_add e2 e1
      have e5 : 0 ≤ coeff d (ad F a + ad F nb) := by
        rw [coeff_add]; exact add_nonneg (aden_nonneg _ _) (aden_nonneg _ _)
      have e6 := mul_le_mul_of_nonneg_left e4 (le_trans zero_le_one (one_le_pow_u F (ka + 1 - 1)))
      rw [← mul_assoc, ← pow_add, show ka + 1 - 1 + (kb - 1) = ka + kb - 1 by omega] at e6
      exact small_le' (mul_nonneg (le_trans zero_le_one (one_le_pow_u F _)) e5) e6 (hG d)
    refine (Scalar.plus_appr hD ha hnb.opd hfit).mono fun r hr => ⟨hr.good, hr.tidy, ?_⟩
    have := hself.plus hnb.appr hr.appr
    rw [e0, ← sub_eq_add_neg] at this
    exact this

end Verif
