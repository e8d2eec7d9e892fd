import Verif.Lemmas.ArrDen
import Verif.Props.ArithNeg
import Verif.Props.Matrices
import Verif.WitnessArray

/-!
# C27: matrix addition

The full statement is that any two matrix expressions of one shape can be added, with the sum
entrywise.  The code supports only some pairs of kinds: a `KMatrix` on the left with any kind on the
right, `PolynomialMatrix` with `KMatrix` or `PolynomialMatrix`, `MonomialMatrix` with
`PolynomialMatrix` and `VariableMatrix` with `KMatrix`.  The theorems below cover those pairs and the
counterexamples the others.
-/

namespace Verif

open MvPolynomial

variable {r c : ℕ}

/-- The pairs of matrix kinds whose sum the code computes for all inputs. -/
def Mat.Addable {R : Type} (a b : Mat R) : Prop :=
  (∃ ks, a = .k ks) ∨ (∃ ps, a = .p ps) ∧ ((∃ ks, b = .k ks) ∨ ∃ ps, b = .p ps) ∨
    (∃ ms, a = .m ms) ∧ ∃ ps, b = .p ps

/-- The pairs of a matrix kind and a scalar kind whose sum the code computes for all inputs. -/
def Mat.AddableScalar {R : Type} (a : Mat R) (s : Scalar R) : Prop :=
  (∃ ks, a = .k ks) ∧ ((∃ d, s = .k d) ∨ ∃ v, s = .var v) ∨ (∃ ms, a = .m ms) ∨
    (∃ ps, a = .p ps) ∧ ∀ v, s ≠ .var v

section Structure

variable {R : Type} [GoNum R]

private theorem simplify_ok' {P : Var R → Prop} {D : Set (ℕ →₀ ℕ)} {l : List (Mono R)} (hne : l ≠ [])
    (h : GoodL P D l) : ∃ q, Poly.simplify ⟨l⟩ = .ok q := by
  obtain ⟨q, hq, -⟩ := Poly.simplify_ok (p := ⟨l⟩) hne h
  exact ⟨q, hq⟩

/-- C27, structure (every number type). -/
theorem mat_plus_total {a b : Mat R} (hk : a.Addable b) (hr : 0 < r) (hc : 0 < c)
    (ha : (Expr.m a).Canon) (sa : (Expr.m a).Shape r c)
    (hb : (Expr.m b).Canon) (sb : (Expr.m b).Shape r c) :
    ∃ e, (Expr.m a).plus (.m b) = .ok e ∧ e.Shape r c ∧ e.Canon ∧
      ∀ v, e.Mentions v → (Expr.m a).Mentions v ∨ (Expr.m b).Mentions v := by
  have h1 := earr_m_iff.mp (egood_of sa ha (P := fun v => (Expr.m a).Mentions v ∨ (Expr.m b).Mentions v)
    fun _ h => Or.inl h)
  have h2 := earr_m_iff.mp (egood_of sb hb (P := fun v => (Expr.m a).Mentions v ∨ (Expr.m b).Mentions v)
    fun _ h => Or.inr h)
  have hSt : ∀ i j, i < r → j < c → Stable
      ((fun _ _ => Good (fun v => (Expr.m a).Mentions v ∨ (Expr.m b).Mentions v) Set.univ) i j) :=
    fun _ _ _ _ => stable_good
  rcases hk with ⟨ks, rfl⟩ | ⟨⟨ps, rfl⟩, hb'⟩ | ⟨⟨ms, rfl⟩, ps, rfl⟩
  · obtain ⟨e, h3, h4, -⟩ := kmPlus_mat_ok hr h1 (fun _ _ _ h => h.check) h2 (fun _ _ _ h => h.check)
      hSt fun _ _ _ _ _ _ hx hy => Scalar.plus_good hx hy
    exact ⟨e, h3, egood_spec h4⟩
  · obtain ⟨e, h3, h4, -⟩ := pmPlus_mat_ok hr hc h1 (fun _ _ _ h => h.check) h2
      (fun _ _ _ h => h.check) hb' hSt fun _ _ p y _ _ hx hy => Scalar.plus_good (a := .poly p) hx hy
    exact ⟨e, h3, egood_spec h4⟩
  · have hl : ∀ {m : Mono R} {p : Poly R}, Good (fun v => (Expr.m (.m ms)).Mentions v ∨
        (Expr.m (.p ps)).Mentions v) Set.univ (.mono m) → Good (fun v => (Expr.m (.m ms)).Mentions v ∨
        (Expr.m (.p ps)).Mentions v) Set.univ (.poly p) → GoodL (fun v => (Expr.m (.m ms)).Mentions v ∨
        (Expr.m (.p ps)).Mentions v) Set.univ (m :: p.monos) := by
      intro m p hm hp q hq
      rcases List.mem_cons.mp hq with rfl | hq
      · exact hm
      · exact hp.2 q hq
    obtain ⟨e, h3, h4, -⟩ := mmPlus_pm_ok hr h1 (fun _ _ _ h => h.check) h2
      (fun _ _ _ h => h.check) (fun _ _ m p hm hp => simplify_ok' (by simp) (hl hm hp))
      (Q := fun _ _ => Good (fun v => (Expr.m (.m ms)).Mentions v ∨
        (Expr.m (.p ps)).Mentions v) Set.univ)
      fun _ _ m p _ _ hm hp => ⟨by simp, hl hm hp⟩
    exact ⟨e, h3, egood_spec h4⟩

/-- C27: matrices of different shapes, neither of them 1 by 1, are rejected. -/
theorem mat_plus_dimension {a b : Mat R} {r' c' : ℕ} (hr : 0 < r) (hr' : 0 < r')
    (ha : (Expr.m a).Canon) (sa : (Expr.m a).Shape r c) (hb : (Expr.m b).Canon)
    (sb : (Expr.m b).Shape r' c') (hne : (r, c) ≠ (r', c')) (h1 : (r, c) ≠ (1, 1))
    (h1' : (r', c') ≠ (1, 1)) : (Expr.m a).plus (.m b) = .error .dimension := by
  have h1 := earr_m_iff.mp (egood_of sa ha (P := fun _ => True) fun _ _ => trivial)
  have h2 := earr_m_iff.mp (egood_of sb hb (P := fun _ => True) fun _ _ => trivial)
  have c1 := h1.check hr fun _ _ _ h => h.check
  have c2 := h2.check hr' fun _ _ _ h => h.check
  have d2 := h2.dims hr' fun _ _ _ h => h.check
  have hd : checkDimAdd (r, c) (r', c') = .error .dimension := by
    unfold checkDimAdd
    simp_all [isScalarDims, Go.throw_eq]
  cases a with
  | k rows =>
    show kmPlus rows (.m b) = _
    unfold kmPlus
    simp only [Expr.check, c2, (Arr.map_iff.mp h1).rowDims hr, Expr.dims, d2, Go.ok_bind, hd,
      Go.err_bind]
  | v rows =>
    show vmPlus rows (.m b) = _
    unfold vmPlus
    simp only [c1, Expr.check, c2, (Arr.map_iff.mp h1).rowDims hr, Expr.dims, d2, Go.ok_bind, hd,
      Go.err_bind]
  | m rows =>
    show mmPlus rows (.m b) = _
    unfold mmPlus
    simp only [c1, Expr.check, c2, (Arr.map_iff.mp h1).rowDims hr, Expr.dims, d2, Go.ok_bind, hd,
      Go.err_bind]
  | p rows =>
    show pmPlus rows (.m b) = _
    unfold pmPlus
    simp only [c1, Expr.check, c2, (Arr.map_iff.mp h1).rowDims hr, Expr.dims, d2, Go.ok_bind, hd,
      Go.err_bind]

end Structure

section Value

variable {R : Type} [Field R] [LinearOrder R] {D : Set (ℕ →₀ ℕ)}
  {M N : Matrix (Fin r) (Fin c) (MvPolynomial ℕ R)}

private theorem cons_den {f g : MvPolynomial ℕ R} {m : Mono R} {p : Poly R}
    (hm : GoodDen (fun _ => True) D f (.mono m)) (hp : GoodDen (fun _ => True) D g (.poly p)) :
    GoodDen (fun _ => True) D (f + g) (.poly ⟨m :: p.monos⟩) := by
  refine ⟨⟨by simp, fun q hq => ?_⟩, ?_⟩
  · rcases List.mem_cons.mp hq with rfl | hq
    · exact hm.1
    · exact hp.1.2 q hq
  · rw [← hm.2, ← hp.2]
    show (Poly.mk (m :: p.monos)).den = m.den + p.den
    rw [Poly.den_eq, Poly.den_eq]
    exact lden_cons ..

/-- C27, partial (supported kinds, rearrangement-free terms): the sum is the entrywise sum. -/
theorem mat_plus_partial {a b : Mat R} (hk : a.Addable b) (hD : RearrFree D) (hr : 0 < r) (hc : 0 < c)
    (ha : (Expr.m a).Canon) (ta : (Expr.m a).TermsIn D) (da : (Expr.m a).Denotes M)
    (hb : (Expr.m b).Canon) (tb : (Expr.m b).TermsIn D) (db : (Expr.m b).Denotes N) :
    ∃ e, (Expr.m a).plus (.m b) = .ok e ∧ e.Canon ∧ e.TermsIn D ∧ e.Denotes (M + N) := by
  have h1 := earr_m_iff.mp (eden_of ha ta da)
  have h2 := earr_m_iff.mp (eden_of hb tb db)
  refine eden_ok (f := fun i j => extM M i j + extM N i j) (Q := fun _ => True) ?_ fun i j => by
    rw [Matrix.add_apply, ← extM_fin M, ← extM_fin N]
  rcases hk with ⟨ks, rfl⟩ | ⟨⟨ps, rfl⟩, hb'⟩ | ⟨⟨ms, rfl⟩, ps, rfl⟩
  · exact (kmPlus_mat_ok hr h1 (fun _ _ _ => goodDen_check) h2 (fun _ _ _ => goodDen_check)
      (fun _ _ _ _ => stable_goodDen hD _) fun _ _ _ _ _ _ hx hy => goodDen_plus hD hx hy).mono
      fun _ he => ⟨he.1, trivial⟩
  · exact (pmPlus_mat_ok hr hc h1 (fun _ _ _ => goodDen_check) h2 (fun _ _ _ => goodDen_check) hb'
      (fun _ _ _ _ => stable_goodDen hD _) fun _ _ p y _ _ hx hy =>
        goodDen_plus (x := .poly p) hD hx hy).mono fun _ he => ⟨he.1, trivial⟩
  · exact (mmPlus_pm_ok hr h1 (fun _ _ _ => goodDen_check) h2 (fun _ _ _ => goodDen_check)
      (fun _ _ m p hm hp => simplify_ok' (by simp) (cons_den hm hp).1.2)
      fun _ _ m p _ _ hm hp => cons_den hm hp).mono fun _ he => ⟨he.1, trivial⟩

/-- C27 for entries of degree at most two. -/
theorem mat_plus_deg_two {a b : Mat R} (hk : a.Addable b) (hr : 0 < r) (hc : 0 < c)
    (ha : (Expr.m a).Canon) (ta : (Expr.m a).TermsIn (degLE 2)) (da : (Expr.m a).Denotes M)
    (hb : (Expr.m b).Canon) (tb : (Expr.m b).TermsIn (degLE 2)) (db : (Expr.m b).Denotes N) :
    ∃ e, (Expr.m a).plus (.m b) = .ok e ∧ e.Canon ∧ e.TermsIn (degLE 2) ∧ e.Denotes (M + N) :=
  mat_plus_partial hk rearrFree_degLE_two hr hc ha ta da hb tb db

/-- C27: a matrix of monomials plus a matrix of polynomials needs no condition on the terms, since
nothing is collected. -/
theorem monomat_plus_polymat {ms : List (List (Mono R))} {ps : List (List (Poly R))}
    (hr : 0 < r) (ha : (Expr.m (.m ms)).Canon) (da : (Expr.m (.m ms)).Denotes M)
    (hb : (Expr.m (.p ps)).Canon) (db : (Expr.m (.p ps)).Denotes N) :
    ∃ e, (Expr.m (.m ms)).plus (.m (.p ps)) = .ok e ∧ e.Canon ∧ e.Denotes (M + N) := by
  have h1 := earr_m_iff.mp (eden_of (D := Set.univ) ha (fun row hrow a ha' =>
    a.termsIn_univ) da)
  have h2 := earr_m_iff.mp (eden_of (D := Set.univ) hb (fun row hrow a ha' =>
    a.termsIn_univ) db)
  obtain ⟨e, h3, h4, -, h5⟩ := eden_ok (f := fun i j => extM M i j + extM N i j) (M := M + N)
    (mmPlus_pm_ok hr h1 (fun _ _ _ => goodDen_check) h2 (fun _ _ _ => goodDen_check)
      (fun _ _ m p hm hp => simplify_ok' (by simp) (cons_den hm hp).1.2)
      fun _ _ m p _ _ hm hp => cons_den hm hp) fun i j => by
    rw [Matrix.add_apply, ← extM_fin M, ← extM_fin N]
  exact ⟨e, h3, h4, h5⟩

private theorem var_plus_k_poly {v : Var R} {d : R} {f : MvPolynomial ℕ R}
    (hv : GoodDen (fun _ => True) (degLE 1) f (.var v)) (hd : d ≠ 0) :
    Go.Ok (v.plus (.k d)) (fun x => GoodDen (fun _ => True) (degLE 1) (f + C d) x ∧
      ∃ p, x = .poly p) := by
  have hD : RearrFree (degLE 1) := rearrFree_degLE_two.mono fun _ hd => le_trans (b := 1) hd (by decide)
  have hfl : (degLE 1) ⊆ flat := fun _ hd => degLE_two_flat (le_trans (b := 1) hd (by decide))
  obtain ⟨t, h1, h2⟩ := goodDen_plus (x := .var v) (y := .k d) hD hv
    (⟨trivial, rfl⟩ : GoodDen (fun _ => True) (degLE 1) (C d) (.k d))
  have hg := good_iff.mp hv.1
  obtain ⟨t', h3, h4, h5⟩ := plus_smallest_partial (a := .var v) (b := .k d) hg.1 trivial
    (hg.2.1.mono hfl) trivial
  rw [h1, Except.ok.injEq] at h3
  subst h3
  refine ⟨t, h1, h2, h5.poly_of_two ?_⟩
  have hne : (Finsupp.single v.id 1 : ℕ →₀ ℕ) ≠ 0 := by simp
  have hsub : {Finsupp.single v.id 1, 0} ⊆ t.den.support := by
    intro m hm
    rw [mem_support_iff, h4]
    show coeff m (X v.id + C d) ≠ 0
    rw [coeff_add, coeff_X', coeff_C]
    rcases Finset.mem_insert.mp hm with rfl | hm
    · rw [if_pos rfl, if_neg hne.symm]
      simp
    · obtain rfl := Finset.mem_singleton.mp hm
      rw [if_neg hne, if_pos rfl]
      simpa using hd
  exact le_trans (Finset.card_pair hne).ge (Finset.card_le_card hsub)

private theorem varmat_terms {rows : List (List (Var R))} : (Expr.m (.v rows)).TermsIn (degLE 1) := by
  intro row hrow a ha
  obtain ⟨row', -, rfl⟩ := List.mem_map.mp hrow
  obtain ⟨v, -, rfl⟩ := List.mem_map.mp ha
  show ((Finsupp.single v.id 1).sum fun _ e => e) ≤ 1
  rw [Finsupp.sum_single_index rfl]

/-- C27, partial: a matrix of variables plus a matrix of constants none of which is zero; a zero
entry panics (`varmat_plus_zero_panics`). -/
theorem varmat_plus_kmat_partial {rows : List (List (Var R))} {ks : List (List R)}
    (hr : 0 < r) (ha : (Expr.m (.v rows)).Canon) (da : (Expr.m (.v rows)).Denotes M)
    (db : (Expr.m (.k ks)).Denotes N) (hnz : ∀ row ∈ ks, ∀ d ∈ row, d ≠ 0) :
    ∃ e, (Expr.m (.v rows)).plus (.m (.k ks)) = .ok e ∧ e.Canon ∧ e.TermsIn (degLE 1) ∧
      e.Denotes (M + N) := by
  have h1 := earr_m_iff.mp (eden_of ha varmat_terms da)
  have hq : (Expr.m (.k ks)).All (fun a => ∀ d, a = .k d → d ≠ 0) := by
    intro row hrow a ha
    obtain ⟨row', hrow', rfl⟩ := List.mem_map.mp hrow
    obtain ⟨x, hx, rfl⟩ := List.mem_map.mp ha
    rintro d ⟨⟩
    exact hnz row' hrow' _ hx
  have h2 := earr_m_iff.mp ((denotes_iff.mp db).and_all hq)
  have hck : ∀ i j x, (fun i j (a : Scalar R) => a.den = extM N i j ∧ ∀ d, a = .k d → d ≠ 0) i j x →
      True := fun _ _ _ _ => trivial
  refine eden_ok (f := fun i j => extM M i j + extM N i j) (Q := fun _ => True) ?_ fun i j => by
    rw [Matrix.add_apply, ← extM_fin M, ← extM_fin N]
  show Go.Ok (vmPlus rows (.m (.k ks))) _
  unfold vmPlus
  rw [h1.check hr (fun _ _ _ => goodDen_check)]
  simp only [Expr.check, Mat.check, Go.pure_eq, Go.ok_bind,
    (Arr.map_iff.mp h1).rowDims hr, Expr.dims, Mat.dims, (Arr.map_iff.mp h2).rowDims hr,
    checkDimAdd_same]
  refine (vmPlusK_ok h1 h2 fun i j v d _ _ hv hd => ?_).mono fun e he => ⟨he.1, trivial⟩
  rw [← hd.1]
  exact var_plus_k_poly hv (hd.2 d rfl)

/-- C27, partial: a matrix of variables plus a constant other than zero, in either order. -/
theorem varmat_plus_k_partial {rows : List (List (Var R))} {d : R} (hr : 0 < r) (hc : 0 < c)
    (ha : (Expr.m (.v rows)).Canon) (da : (Expr.m (.v rows)).Denotes M) (hd : d ≠ 0) :
    ∃ e, (Expr.m (.v rows)).plus (.s (.k d)) = .ok e ∧ (Expr.s (.k d)).plus (.m (.v rows)) = .ok e ∧
      e.Canon ∧ e.TermsIn (degLE 1) ∧ e.Denotes (M + Matrix.of fun _ _ => C d) := by
  have h1 := earr_m_iff.mp (eden_of ha varmat_terms da)
  have hck := h1.check hr (fun _ _ _ => goodDen_check)
  suffices h : ∃ e, (Expr.m (.v rows)).plus (.s (.k d)) = .ok e ∧
      e.Canon ∧ e.TermsIn (degLE 1) ∧ e.Denotes (M + Matrix.of fun _ _ => C d) by
    obtain ⟨e, h3, h4⟩ := h
    refine ⟨e, h3, ?_, h4⟩
    show (Mat.check (.v rows) >>= fun _ => (Expr.m (.v rows)).plus (.s (.k d))) = _
    rw [hck, Go.ok_bind, h3]
  refine eden_ok (f := fun i j => extM M i j + C d) (Q := fun _ => True) ?_ fun i j => by
    rw [Matrix.add_apply, ← extM_fin M, Matrix.of_apply]
  show Go.Ok (vmPlus rows (.s (.k d))) _
  unfold vmPlus
  simp only [hck, Expr.check, Scalar.check, Go.pure_eq, Go.ok_bind,
    (Arr.map_iff.mp h1).rowDims hr, Expr.dims, checkDimAdd_right, constRows]
  rw [if_neg (by omega)]
  simp only [Go.ok_bind]
  have h2 : MArr r c (fun _ _ x => x = .k (d * 1))
      (.k (List.replicate r (List.replicate c (GoNum.mul d GoNum.one)))) :=
    Arr.map_iff.mpr (LArr.replicate fun i _ => LArr.replicate fun j _ => rfl)
  refine (vmPlusK_ok h1 h2 fun i j v x _ _ hv hx => ?_).mono fun e he => ⟨he.1, trivial⟩
  rw [mul_one] at hx
  cases hx
  exact var_plus_k_poly hv hd

/-! ### Matrix plus scalar -/

/-- C27, partial: a scalar is added to every entry, for the supported kinds. -/
theorem mat_plus_scalar_partial {a : Mat R} {s : Scalar R} (hk : a.AddableScalar s)
    (hD : RearrFree D) (hr : 0 < r) (hc : 0 < c)
    (ha : (Expr.m a).Canon) (ta : (Expr.m a).TermsIn D) (da : (Expr.m a).Denotes M)
    (hs : s.Canon) (ts : s.TermsIn D) :
    ∃ e, (Expr.m a).plus (.s s) = .ok e ∧ e.Canon ∧ e.TermsIn D ∧
      e.Denotes (M + Matrix.of fun _ _ => s.den) := by
  have h1 := earr_m_iff.mp (eden_of ha ta da)
  have h2 : GoodDen (fun _ => True) D s.den s := ⟨good_of hs ts, rfl⟩
  have h2p : GoodDen (fun _ => True) D s.den (.poly s.toPoly) :=
    ⟨good_toPoly h2.1, toPoly_den s⟩
  refine eden_ok (f := fun i j => extM M i j + s.den) (Q := fun _ => True) ?_ fun i j => by
    rw [Matrix.add_apply, ← extM_fin M, Matrix.of_apply]
  rcases hk with ⟨⟨ks, rfl⟩, ⟨d, rfl⟩ | ⟨v, rfl⟩⟩ | ⟨ms, rfl⟩ | ⟨⟨ps, rfl⟩, hv⟩
  · refine (kmPlus_k_ok hr hc h1 d fun i j x _ _ hx => ⟨trivial, ?_⟩).mono fun _ he => ⟨he.1, trivial⟩
    rw [← hx.2]
    show C (d * 1 + x) = C x + C d
    rw [mul_one, C_add, add_comm]
  · exact (kmPlus_var_ok hr h1 (fun _ _ _ => goodDen_check) hs (fun _ _ _ _ => stable_goodDen hD _)
      fun i j x _ _ hx => goodDen_plus hD hx h2).mono fun _ he => ⟨he.1, trivial⟩
  · exact (mmPlus_scalar_ok hr h1 (fun _ _ _ => goodDen_check) h2.1.check
      (fun _ _ m hm => simplify_ok' (by simp) (cons_den hm h2p).1.2)
      fun _ _ m _ _ hm => cons_den hm h2p).mono fun _ he => ⟨he.1, trivial⟩
  · refine (pmPlus_scalar_ok hr hc h1 (fun _ _ _ => goodDen_check) h2.1.check hv
      (fun _ _ _ _ => stable_goodDen hD _) fun i j p t _ _ hx ht => ?_).mono
      fun _ he => ⟨he.1, trivial⟩
    rcases ht with rfl | rfl
    · exact goodDen_plus (x := .poly p) hD hx h2
    · exact goodDen_plus (x := .poly p) hD hx h2p

/-- C27, partial: a polynomial plus a matrix of any kind. -/
theorem poly_plus_mat_partial {b : Mat R} {p : Poly R} (hD : RearrFree D) (hr : 0 < r) (hc : 0 < c)
    (hp : (Scalar.poly p).Canon) (tp : (Scalar.poly p).TermsIn D)
    (hb : (Expr.m b).Canon) (tb : (Expr.m b).TermsIn D) (db : (Expr.m b).Denotes N) :
    ∃ e, (Expr.s (.poly p)).plus (.m b) = .ok e ∧ e.Canon ∧ e.TermsIn D ∧
      e.Denotes (Matrix.of (fun _ _ => (Scalar.poly p).den) + N) := by
  have h2 : GoodDen (fun _ => True) D (Scalar.poly p).den (.poly p) := ⟨good_of hp tp, rfl⟩
  exact eden_ok (f := fun i j => (Scalar.poly p).den + extM N i j) (Poly.plus_mat_ok hr hc h2.1.check
    (earr_m_iff.mp (eden_of hb tb db)) (fun _ _ _ => goodDen_check)
    (fun _ _ _ _ => stable_goodDen hD _) fun _ _ x _ _ hx => goodDen_plus (x := .poly p) hD h2 hx)
    fun i j => by rw [Matrix.add_apply, ← extM_fin N, Matrix.of_apply]

/-- C27, partial: a constant plus a matrix of constants, monomials or polynomials. -/
theorem k_plus_mat_partial {b : Mat R} {d : R} (hD : RearrFree D) (hr : 0 < r) (hc : 0 < c)
    (hv : ∀ rows, b ≠ .v rows)
    (hb : (Expr.m b).Canon) (tb : (Expr.m b).TermsIn D) (db : (Expr.m b).Denotes N) :
    ∃ e, (Expr.s (.k d)).plus (.m b) = .ok e ∧ e.Canon ∧ e.TermsIn D ∧
      e.Denotes (Matrix.of (fun _ _ => C d) + N) := by
  have hk : b.AddableScalar (.k d) := by
    cases b with
    | k ks => exact Or.inl ⟨⟨_, rfl⟩, Or.inl ⟨_, rfl⟩⟩
    | v rows => exact absurd rfl (hv rows)
    | m ms => exact Or.inr (Or.inl ⟨_, rfl⟩)
    | p ps => exact Or.inr (Or.inr ⟨⟨_, rfl⟩, fun _ h => by cases h⟩)
  obtain ⟨e, h1, h2⟩ := mat_plus_scalar_partial hk hD hr hc hb tb db trivial trivial
  refine ⟨e, ?_, by rw [add_comm]; exact h2⟩
  show (b.check >>= fun _ => b.plus (.s (.k d))) = _
  rw [(earr_m_iff.mp (eden_of hb tb db)).check hr fun _ _ _ => goodDen_check, Go.ok_bind]
  exact h1

/-! ### Subtraction -/

/-- The right operand times `-1`. -/
theorem Mat.neg_ok {b : Mat R} {f : ℕ → ℕ → MvPolynomial ℕ R} (hD : RearrFree D) (hr : 0 < r)
    (hc : 0 < c) (h1 : MArr r c (fun i j => GoodDen (fun _ => True) D (f i j)) b)
    (hd : (∃ rows, b = .v rows) → (-1 : R) ≠ 1) :
    Go.Ok ((Expr.m b).mulF64 negOne) (fun e =>
      EArr r c (fun i j => GoodDen (fun _ => True) D (-f i j)) e ∧
      ((∀ ps, b ≠ .p ps) ∨ c ≠ 1 → ∃ m, e = .m m)) := by
  have hf : (fun i j => f i j * C (-1 : R)) = fun i j => -f i j := by
    funext i j
    rw [show (C (-1 : R) : MvPolynomial ℕ R) = -1 by rw [map_neg, C_1]]
    ring
  have key := Mat.mul_k_ok (d := (negOne : R)) hD hr hc h1 fun h => ⟨by
    show (-1 : R) ≠ 0
    simp, hd h⟩
  change Go.Ok _ (fun e => EArr r c (fun i j => GoodDen (fun _ => True) D
    ((fun i j => f i j * C (-1 : R)) i j)) e ∧ _) at key
  rw [hf] at key
  have key2 : Go.Ok ((Expr.m b).mul (.s (.k negOne)) >>= Expr.asSimplified) (fun e =>
      EArr r c (fun i j => GoodDen (fun _ => True) D (-f i j)) e ∧
      ((∀ ps, b ≠ .p ps) ∨ c ≠ 1 → ∃ m, e = .m m)) :=
    Go.Ok.bind key fun e he => (he.1.asSimplified hr fun _ _ _ _ => stable_goodDen hD _).mono
      fun e' he' => ⟨he'.1, fun h => he'.2.2.2 (he.2 h)⟩
  cases b with
  | k rows => exact key
  | v rows => exact key2
  | m rows => exact key
  | p rows => exact key2

/-- C03 for matrices, partial: a constant matrix minus a matrix of any kind; a `PolynomialMatrix` with
a single column on the right panics (`kmat_minus_polycol_false`), and `-1 ≠ 1` is needed for the
negation of a matrix of variables. -/
theorem kmat_minus_partial {ks : List (List R)} {b : Mat R} (hD : RearrFree D) (hr : 0 < r) (hc : 0 < c)
    (da : (Expr.m (.k ks)).Denotes M)
    (hb : (Expr.m b).Canon) (tb : (Expr.m b).TermsIn D) (db : (Expr.m b).Denotes N)
    (hd : (∃ rows, b = .v rows) → (-1 : R) ≠ 1) (hp : (∃ ps, b = .p ps) → c ≠ 1) :
    ∃ e, (Expr.m (.k ks)).minus (.m b) = .ok e ∧ e.Canon ∧ e.TermsIn D ∧ e.Denotes (M - N) := by
  have hk : ∀ q : Scalar R → Prop, (∀ x, q (.k x)) → (Expr.m (.k ks)).All q := by
    intro q hq row hrow a ha
    obtain ⟨row', -, rfl⟩ := List.mem_map.mp hrow
    obtain ⟨x, -, rfl⟩ := List.mem_map.mp ha
    exact hq x
  have h1 := earr_m_iff.mp (eden_of (D := D) (hk _ fun _ => trivial) (hk _ fun _ => trivial) da)
  have h2 := earr_m_iff.mp (eden_of hb tb db)
  refine eden_ok (f := fun i j => extM M i j + -extM N i j) (Q := fun _ => True) ?_ fun i j => by
    rw [Matrix.sub_apply, ← extM_fin M, ← extM_fin N, sub_eq_add_neg]
  show Go.Ok ((Expr.m (.k ks)).check >>= fun _ => (Expr.m b).check >>= fun _ =>
    (Expr.m (.k ks)).dims >>= fun d1 => (Expr.m b).dims >>= fun d2 => checkDimAdd d1 d2 >>= fun _ =>
    (Expr.m b).mulF64 negOne >>= fun nb => (Expr.m (.k ks)).plus nb) _
  simp only [Expr.check, h1.check hr (fun _ _ _ => goodDen_check), Go.ok_bind,
    h2.check hr (fun _ _ _ => goodDen_check), Expr.dims, h1.dims hr (fun _ _ _ => goodDen_check),
    h2.dims hr (fun _ _ _ => goodDen_check), checkDimAdd_same]
  refine Go.Ok.bind (Mat.neg_ok hD hr hc h2 hd) fun e he => ?_
  obtain ⟨m, rfl⟩ := he.2 (by
    by_cases h : ∃ ps, b = .p ps
    · exact Or.inr (hp h)
    · exact Or.inl fun ps hps => h ⟨ps, hps⟩)
  exact (kmPlus_mat_ok hr h1 (fun _ _ _ => goodDen_check) (earr_m_iff.mp he.1)
    (fun _ _ _ => goodDen_check)
    (fun _ _ _ _ => stable_goodDen hD _) fun _ _ _ _ _ _ hx hy => goodDen_plus hD hx hy).mono
    fun _ he => ⟨he.1, trivial⟩

end Value

/-! ## Counterexamples -/

/-- C27 is false for the remaining pairs of kinds: the sum of two matrices of variables, of two
matrices of monomials, of monomials and constants, of variables and monomials and of polynomials and
monomials is not supported. -/
theorem mat_plus_kinds_false :
    (Expr.m wMv).plus (.m wMv) = .error .unsupported ∧
    (Expr.m wMv).plus (.m wMm) = .error .unsupported ∧
    (Expr.m wMv).plus (.m wMp) = .error .unsupported ∧
    (Expr.m wMm).plus (.m wMk) = .error .unsupported ∧
    (Expr.m wMm).plus (.m wMv) = .error .unsupported ∧
    (Expr.m wMm).plus (.m wMm) = .error .unsupported ∧
    (Expr.m wMp).plus (.m wMv) = .error .unsupported ∧
    (Expr.m wMp).plus (.m wMm) = .error .unsupported := by decide +kernel

/-- C05 is false for matrices: `KMatrix + VariableMatrix` is defined, `VariableMatrix + KMatrix` with a
zero entry panics, although both sums are the same matrix. -/
theorem varmat_plus_zero_panics :
    (Expr.m wMv).plus (.m (.k [[0, 1], [1, 1]])) = .error .typeAssert ∧
    (Expr.m (.k [[0, 1], [1, 1]])).plus (.m wMv) = .ok (.m (.p [[⟨[wm1 1 0 1]⟩, ⟨[wm0 1, wm1 1 1 1]⟩],
      [⟨[wm0 1, wm1 1 1 1]⟩, ⟨[wm0 1, wm1 1 2 1]⟩]])) := by decide +kernel

/-- C27: a 1 by 1 matrix of variables plus a larger constant matrix is accepted and loses every entry
but the first. -/
theorem varmat_one_plus_kmat_false :
    (Expr.m (.v [[wx]])).plus (.m wMk) = .ok (.m (.p [[⟨[wm0 1, wm1 1 0 1]⟩]])) := by decide +kernel

/-- C27 is false for a variable or a monomial on the left and for a matrix of polynomials plus a
variable. -/
theorem var_plus_mat_false :
    (Expr.s (.var wx)).plus (.m wMv) = .error .unsupported ∧
    (Expr.s (.mono (wm1 2 0 1))).plus (.m wMv) = .error .unsupported ∧
    (Expr.m wMp).plus (.s (.var wx)) = .error .unsupported := by decide +kernel

/-- C07 is false for `MonomialMatrix.Plus`: the result of `Simplify` is thrown away, so the entry
`3x + x` keeps two like terms. -/
theorem monomat_plus_not_simplified :
    (Expr.m (.m [[wm1 3 0 1, wm1 3 0 1]])).plus (.s (.var wx)) =
      .ok (.m (.p [[⟨[wm1 3 0 1, wm1 1 0 1]⟩, ⟨[wm1 3 0 1, wm1 1 0 1]⟩]])) := by decide +kernel

/-- C03 is false for matrices: with a single column the negated `PolynomialMatrix` is turned into a
vector, which `KMatrix.Plus` does not accept. -/
theorem kmat_minus_polycol_false :
    (Expr.m (.k [[1], [2]])).minus (.m (.p [[⟨[wm1 1 0 1]⟩], [⟨[wm1 1 1 1]⟩]])) =
      .error .unsupported := by decide +kernel

/-- C03 is false for two matrices of polynomials: when every entry on the right has a single term, the
negated matrix is turned into a `MonomialMatrix`, which `PolynomialMatrix.Plus` does not accept. -/
theorem polymat_minus_polymat_false :
    (Expr.m wMp).minus (.m (.p [[⟨[wm1 1 0 1]⟩, ⟨[wm1 1 1 1]⟩], [⟨[wm1 1 0 1]⟩, ⟨[wm1 1 1 1]⟩]])) =
      .error .unsupported := by decide +kernel

/-! ## Examples -/

example : ∃ e, (Expr.m wMk).plus (.m wMv) = .ok e ∧ e.Canon ∧ e.TermsIn (degLE 2) ∧
    e.Denotes (!![C 1, C 2; C 3, C 4] + !![X 0, X 1; X 1, X 2]) :=
  mat_plus_deg_two (Or.inl ⟨_, rfl⟩) (by decide) (by decide) (Expr.okDeg_canon 2 (by decide +kernel))
    (Expr.okDeg_terms (by decide +kernel)) wMk_denotes
    (Expr.okDeg_canon 2 (by decide +kernel)) (Expr.okDeg_terms (by decide +kernel)) wMv_denotes

example : ∃ e, (Expr.m wMm).plus (.m wMp) = .ok e ∧ e.Shape 2 2 ∧ e.Canon ∧
    ∀ v, e.Mentions v → (Expr.m wMm).Mentions v ∨ (Expr.m wMp).Mentions v :=
  mat_plus_total (Or.inr (Or.inr ⟨⟨_, rfl⟩, _, rfl⟩)) (by decide) (by decide)
    (Expr.okDeg_canon 2 (by decide +kernel)) (by decide)
    (Expr.okDeg_canon 2 (by decide +kernel)) (by decide)

example : ∃ e, (Expr.m wMp).plus (.m wMk) = .ok e ∧ e.Shape 2 2 ∧ e.Canon ∧
    ∀ v, e.Mentions v → (Expr.m wMp).Mentions v ∨ (Expr.m wMk).Mentions v :=
  mat_plus_total (Or.inr (Or.inl ⟨⟨_, rfl⟩, Or.inl ⟨_, rfl⟩⟩)) (by decide) (by decide)
    (Expr.okDeg_canon 2 (by decide +kernel)) (by decide)
    (Expr.okDeg_canon 2 (by decide +kernel)) (by decide)

example : ∃ e, (Expr.m wMv).plus (.m wMk) = .ok e ∧ e.Canon ∧ e.TermsIn (degLE 1) ∧
    e.Denotes (!![X 0, X 1; X 1, X 2] + !![C 1, C 2; C 3, C 4]) :=
  varmat_plus_kmat_partial (by decide) (Expr.okDeg_canon 2 (by decide +kernel)) wMv_denotes
    wMk_denotes (by decide +kernel)

example : ∃ e, (Expr.m wMv).plus (.s (.k 5)) = .ok e ∧ (Expr.s (.k 5)).plus (.m wMv) = .ok e ∧
    e.Canon ∧ e.TermsIn (degLE 1) ∧
    e.Denotes (!![X 0, X 1; X 1, X 2] + Matrix.of fun _ _ => (C 5 : MvPolynomial ℕ ℚ)) :=
  varmat_plus_k_partial (by decide) (by decide) (Expr.okDeg_canon 2 (by decide +kernel)) wMv_denotes
    (by norm_num)

example : ∃ e, (Expr.m wMk).plus (.s (.var wx)) = .ok e ∧ e.Canon ∧ e.TermsIn (degLE 2) ∧
    e.Denotes (!![C 1, C 2; C 3, C 4] + Matrix.of fun _ _ => (Scalar.var wx).den) :=
  mat_plus_scalar_partial (Or.inl ⟨⟨_, rfl⟩, Or.inr ⟨_, rfl⟩⟩) rearrFree_degLE_two (by decide)
    (by decide) (Expr.okDeg_canon 2 (by decide +kernel)) (Expr.okDeg_terms (by decide +kernel))
    wMk_denotes (Scalar.okDeg_spec (n := 2) (by decide +kernel)).1
    (Scalar.okDeg_spec (by decide +kernel)).2

example : ∃ e, (Expr.s (.poly ⟨[wm1 2 0 1]⟩)).plus (.m wMv) = .ok e ∧ e.Canon ∧ e.TermsIn (degLE 2) ∧
    e.Denotes (Matrix.of (fun _ _ => (Scalar.poly ⟨[wm1 2 0 1]⟩).den) + !![X 0, X 1; X 1, X 2]) :=
  poly_plus_mat_partial rearrFree_degLE_two (by decide) (by decide)
    (Scalar.okDeg_spec (n := 2) (by decide +kernel)).1 (Scalar.okDeg_spec (by decide +kernel)).2
    (Expr.okDeg_canon 2 (by decide +kernel)) (Expr.okDeg_terms (by decide +kernel)) wMv_denotes

example : ∃ e, (Expr.m wMk).minus (.m wMv) = .ok e ∧ e.Canon ∧ e.TermsIn (degLE 2) ∧
    e.Denotes (!![C 1, C 2; C 3, C 4] - !![X 0, X 1; X 1, X 2]) :=
  kmat_minus_partial rearrFree_degLE_two (by decide) (by decide) wMk_denotes
    (Expr.okDeg_canon 2 (by decide +kernel)) (Expr.okDeg_terms (by decide +kernel)) wMv_denotes
    (fun _ => by norm_num) (fun h => by obtain ⟨_, h⟩ := h; cases h)

end Verif
