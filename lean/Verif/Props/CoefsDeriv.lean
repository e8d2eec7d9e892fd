import Verif.Props.CoefsMatVec
import Verif.Props.ArrayDeriv
import Verif.Lemmas.Sound

/-!
# C100: derivatives of vectors and matrices, coefficient by coefficient

Which `float64` operations compute each coefficient of each entry of `DerivativeWrt`: one multiplication, as for
scalars (C89); for vectors of monomials with a higher power, the multiplication the code does instead.
-/

set_option linter.unusedSectionVars false

namespace Verif

open MvPolynomial

section Deriv
variable {r k : ℕ} {D : Set (ℕ →₀ ℕ)} {v : Var F64}

private def Is (e : Expr F64) (i j : ℕ) (x : Scalar F64) : Prop :=
  x = e.entryD i j ∧ x.Canon ∧ x.NumsValid ∧ x.Repeats 1

private theorem Expr.Tidy.earr {e : Expr F64} (h : e.Tidy r k D) : EArr r k (Is e) e :=
  (EArr.self h.shape).mono fun i j x hi hj hx => by
    have e1 : e.entryD i j = x := by unfold Expr.entryD; rw [hx]; rfl
    refine ⟨e1.symm, ?_⟩
    rw [← e1]
    exact ⟨h.canon i hi j hj, h.nums i hi j hj, h.once i hi j hj⟩

private abbrev Out (f : (ℕ →₀ ℕ) → F64) : Scalar F64 → Prop := CRes F64.Value (fun _ => True) Set.univ f

private theorem conv_out {f : (ℕ →₀ ℕ) → F64} : Conv (Out f) where
  poly s h := by
    refine ⟨good_toPoly h.good, ?_, ?_, ?_⟩ <;> rw [terms_toPoly]
    exacts [h.nums, h.once, h.coef]
  mono s m h hm := by
    refine ⟨good_toMono h.good hm, ?_, ?_, ?_⟩ <;> rw [terms_toMono hm]
    exacts [h.nums, h.once, h.coef]

private theorem res_of {e : Expr F64} {f : ℕ → ℕ → (ℕ →₀ ℕ) → F64} (h : EArr r k (fun i j => Out (f i j)) e) :
    e.Tidy r k Set.univ ∧ ∀ i < r, ∀ j < k, ∀ d, (e.entryD i j).coeffAt d = f i j d := by
  have g : ∀ i < r, ∀ j < k, Out (f i j) (e.entryD i j) := fun i hi j hj => by
    obtain ⟨x, h1, h2⟩ := h.get hi hj
    unfold Expr.entryD
    rw [h1]
    exact h2
  exact ⟨⟨h.shape, fun i hi j hj => (good_iff.mp (g i hi j hj).good).1,
    fun i hi j hj => (good_iff.mp (g i hi j hj).good).2.1, fun i hi j hj => (g i hi j hj).nums,
    fun i hi j hj => onceL_iff.mp (g i hi j hj).once⟩, fun i hi j hj => (g i hi j hj).coef⟩

private theorem scalar_out {x : Scalar F64} (cx : x.Canon) (vx : x.NumsValid) (ox : x.Repeats 1) (hv : v.OK) :
    Go.Ok (x.derivative v) (Out (x.derivAt v.id)) := by
  obtain ⟨y, h1, h2, h3, h4⟩ := derivative_coeffs_exact cx vx ox hv
  obtain ⟨z, h5, h6, -⟩ := derivative_total cx hv
  rw [h1, Except.ok.injEq] at h5
  subst h5
  exact ⟨y, h1, good_of_univ h6, h2, onceL_iff.mpr h3, h4⟩

/-- C100: every kind except vectors of monomials and vectors or matrices of polynomials. -/
theorem derivative_array_coeffs (hr : 0 < r) (hk : 0 < k) {e : Expr F64} (he : e.Tidy r k D) (hd : e.DerivDirect)
    (hv : v.OK) : ∃ e', e.derivative v = .ok e' ∧ e'.Tidy r k Set.univ ∧ ∀ i < r, ∀ j < k, ∀ d,
      (e'.entryD i j).coeffAt d = (e.entryD i j).derivAt v.id d := by
  obtain ⟨e', h1, h2, -⟩ := Expr.derivative_ok (v := v) (Q' := fun i j => Out ((e.entryD i j).derivAt v.id)) hr hk hd
    he.earr (fun _ _ _ h => (good_of_univ h.2.1).check) hv.check (fun _ _ _ _ => conv_out) (fun i j x _ _ hx => by
      rw [← hx.1]
      exact scalar_out hx.2.1 hx.2.2.1 hx.2.2.2 hv)
  obtain ⟨h3, h4⟩ := res_of h2
  exact ⟨e', h1, h3, h4⟩

private theorem derivPoly_out {p : Poly F64} (cp : (Scalar.poly p).Canon) (vp : (Scalar.poly p).NumsValid)
    (op : (Scalar.poly p).Repeats 1) (hv : v.OK) :
    Go.Post (p.derivPoly v) fun q => Out ((Scalar.poly p).derivAt v.id) (.poly q) := by
  obtain ⟨y, h1, h2⟩ := scalar_out cp vp op hv
  intro q hq
  rcases Poly.derivPoly_cases cp hv with ⟨q', h4, h5⟩ | ⟨-, h5⟩
  · rw [h5, Except.ok.injEq] at hq
    have h1' : p.derivative v = .ok y := h1
    rw [h4, Except.ok.injEq] at h1'
    subst hq h1'
    exact h2
  · rw [h5] at hq
    cases hq

/-- C100: vectors of polynomials, whenever the call returns (C11 says when it panics). -/
theorem derivative_polyVec_coeffs {l : List (Poly F64)} (hl : (Expr.v (.p l)).Tidy r 1 D) (hv : v.OK)
    {e' : Expr F64} (h : (Expr.v (.p l)).derivative v = .ok e') :
    e'.Tidy r 1 Set.univ ∧ ∀ i < r, ∀ d,
      (e'.entryD i 0).coeffAt d = ((Expr.v (.p l)).entryD i 0).derivAt v.id d := by
  have h' := LArr.map_iff.mp (earr_v_iff.mp hl.earr)
  have key : Go.Post ((Expr.v (.p l)).derivative v)
      (EArr r 1 fun i j => Out (((Expr.v (.p l)).entryD i j).derivAt v.id)) := by
    refine Go.Post.bind (P := VArr r fun i => Out (((Expr.v (.p l)).entryD i 0).derivAt v.id)) ?_
      fun b hb => Go.post_pure (earr_v_iff.mpr hb)
    refine (LArr.mapM_post h' fun i p hi hp => ?_).bind fun q hq => Go.post_pure (LArr.map_iff.mpr hq)
    rw [← hp.1]
    exact derivPoly_out hp.2.1 hp.2.2.1 hp.2.2.2 hv
  obtain ⟨h1, h2⟩ := res_of (key e' h)
  exact ⟨h1, fun i hi => h2 i hi 0 one_pos⟩

/-- C100: matrices of polynomials, whenever the call returns. -/
theorem derivative_polyMat_coeffs {g : List (List (Poly F64))} (hl : (Expr.m (.p g)).Tidy r k D) (hv : v.OK)
    {e' : Expr F64} (h : (Expr.m (.p g)).derivative v = .ok e') :
    e'.Tidy r k Set.univ ∧ ∀ i < r, ∀ j < k, ∀ d,
      (e'.entryD i j).coeffAt d = ((Expr.m (.p g)).entryD i j).derivAt v.id d := by
  have h' := Arr.map_iff.mp (earr_m_iff.mp hl.earr)
  have key : Go.Post ((Expr.m (.p g)).derivative v)
      (EArr r k fun i j => Out (((Expr.m (.p g)).entryD i j).derivAt v.id)) := by
    refine Go.Post.bind (P := MArr r k fun i j => Out (((Expr.m (.p g)).entryD i j).derivAt v.id)) ?_
      fun b hb => Go.post_pure (earr_m_iff.mpr hb)
    refine Go.post_bind' fun _ _ => Go.post_bind' fun _ _ => ?_
    refine (Arr.mapM_post h' fun i j p hi hj hp => ?_).bind fun q hq => Go.post_pure (Arr.map_iff.mpr hq)
    rw [← hp.1]
    exact derivPoly_out hp.2.1 hp.2.2.1 hp.2.2.2 hv
  exact res_of (key e' h)

private theorem mono_once (m : Mono F64) : (Scalar.mono m).Repeats 1 := onceL_iff.mp (once_single m)

/-- C100: vectors of monomials.  Where the variable has an exponent of at most one, the derivative; otherwise the
exponent is lowered twice and the coefficient multiplied by the exponent less one, in one multiplication. -/
theorem derivative_monoVec_coeffs (hr : 0 < r) {l : List (Mono F64)} (hl : (Expr.v (.m l)).Tidy r 1 D) (hv : v.OK) :
    ∃ e', (Expr.v (.m l)).derivative v = .ok e' ∧ e'.Tidy r 1 Set.univ ∧ ∀ i m, l[i]? = some m → ∀ d,
      (e'.entryD i 0).coeffAt d =
        if m.degs v.id ≤ 1 then (Scalar.mono m).derivAt v.id d
        else if m.degs = d + Finsupp.single v.id 2 then
          GoNum.mul m.coeff (GoNum.ofInt (((m.degs v.id - 1 : ℕ) : ℤ)))
        else .fin 0 := by
  have h' := LArr.map_iff.mp (earr_v_iff.mp hl.earr)
  obtain rfl : l.length = r := h'.1
  have at' : ∀ m ∈ l, ∃ i, Is (.v (.m l)) i 0 (.mono m) := fun m hm => by
    obtain ⟨i, hi⟩ := List.mem_iff_getElem?.mp hm
    exact ⟨i, h'.2 i m hi⟩
  obtain ⟨b, h1, h2⟩ := derivative_monoVec_ok
    (Q := fun i => Out (((l[i]?.getD (kToMono GoNum.zero)).afterDerivative v |> Scalar.mono).derivAt v.id)) hr
    (fun m hm => (at' m hm).choose_spec.2.1) hv (fun _ _ => conv_out) (fun i m hm => by
      have hi := h'.2 i m hm
      rw [hm]
      refine scalar_out (x := .mono (m.afterDerivative v)) (Mono.afterDerivative_canon hi.2.1).1 ?_ (mono_once _) hv
      by_cases hs : m.degs v.id ≤ 1
      · rw [Mono.afterDerivative_small hi.2.1 hs]
        exact hi.2.2.1
      · refine numL_single (N := F64.Value) ?_
        rw [(Mono.afterDerivative_large hi.2.1 (by omega)).2.1]
        exact hi.2.2.1 m (by simp [Scalar.terms]))
  obtain ⟨h3, h4⟩ := res_of (f := fun i _ =>
    ((l[i]?.getD (kToMono GoNum.zero)).afterDerivative v |> Scalar.mono).derivAt v.id) (earr_v_iff.mpr h2)
  refine ⟨.v b, ?_, h3, fun i m hm d => ?_⟩
  · show (do return Expr.v (← Vec.derivative (.m l) v) : Go (Expr F64)) = _
    rw [h1]; rfl
  · have hi := h'.2 i m hm
    rw [h4 i (List.getElem?_eq_some_iff.mp hm).1 0 one_pos, hm]
    show (Scalar.mono (m.afterDerivative v)).derivAt v.id d = _
    split
    · rename_i hs
      rw [Mono.afterDerivative_small hi.2.1 hs]
    · rename_i hs
      obtain ⟨-, e1, -, e2⟩ := Mono.afterDerivative_large hi.2.1 (v := v) (by omega)
      show dco v.id [m.afterDerivative v] d = _
      rw [dco_one, e1]
      have e3 : (m.afterDerivative v).degs = d + Finsupp.single v.id 1 ↔ m.degs = d + Finsupp.single v.id 2 := by
        rw [← e2, show (2 : ℕ) = 1 + 1 from rfl, Finsupp.single_add, ← add_assoc, add_left_inj]
      by_cases h : m.degs = d + Finsupp.single v.id 2
      · rw [if_pos (e3.mpr h), if_pos h, h]
        simp
      · rw [if_neg (e3.not.mpr h), if_neg h]

end Deriv

/-! ## Examples -/

private def cube : Mono F64 := ⟨F64.fin f64Tenth, [3], [f64Var 1]⟩

private theorem var_ok : (f64Var 1).OK := by
  show GoNum.le (F64.inf false) (F64.inf true) = false
  decide +kernel

private theorem cube_canon : cube.Canon :=
  ⟨rfl, by simp [cube], by simp [cube], by simpa [cube] using var_ok⟩

private theorem cube_degs : cube.degs = Finsupp.single 1 3 := Var.degs_one (f64Var 1) _ 3

private theorem cube_nums : NumL F64.Value [cube] := by
  refine numL_single (N := F64.Value) ?_
  show F64.Able f64Tenth
  unfold F64.Able
  decide +kernel

private theorem tidy_cube {e : Expr F64} {x : Scalar F64} (hs : e.Shape 1 1) (hx : e.entryD 0 0 = x) (cx : x.Canon)
    (ht : x.terms = [cube]) : e.Tidy 1 1 Set.univ := by
  have g : ∀ i < 1, ∀ j < 1, e.entryD i j = x := fun i hi j hj => by
    obtain rfl : i = 0 := by omega
    obtain rfl : j = 0 := by omega
    exact hx
  refine ⟨hs, fun i hi j hj => ?_, fun i hi j hj => ?_, fun i hi j hj => ?_, fun i hi j hj => ?_⟩ <;> rw [g i hi j hj]
  · exact cx
  · exact x.termsIn_univ
  · show NumL F64.Value x.terms
    rw [ht]
    exact cube_nums
  · refine onceL_iff.mp ?_
    rw [ht]
    exact once_single _

private theorem cube_deriv {x : Scalar F64} (ht : x.terms = [cube]) :
    x.derivAt 1 (Finsupp.single 1 2) = .fin (round53 (3 * f64Tenth)) := by
  show dco 1 x.terms _ = _
  rw [ht, dco_one, cube_degs, if_pos (by rw [← Finsupp.single_add])]
  rw [Finsupp.single_eq_same]
  show GoNum.mul (F64.fin f64Tenth) (GoNum.ofInt ((2 + 1 : ℕ) : ℤ)) = _
  decide +kernel

example : ∃ e, (Expr.m (.m [[cube]])).derivative (f64Var 1) = .ok e ∧
    (e.entryD 0 0).coeffAt (Finsupp.single 1 2) = .fin (round53 (3 * f64Tenth)) := by
  obtain ⟨e, h1, -, h2⟩ := derivative_array_coeffs (r := 1) (k := 1) (v := f64Var 1) one_pos one_pos
    (e := .m (.m [[cube]])) (tidy_cube (x := .mono cube) ⟨rfl, by simp [Expr.grid, Mat.entries]⟩ rfl cube_canon rfl)
    trivial var_ok
  exact ⟨e, h1, (h2 0 one_pos 0 one_pos _).trans (cube_deriv (x := .mono cube) rfl)⟩

/-- A vector of monomials: `0.1 * 2` instead of `0.1 * 3`, and `x` instead of `x²`. -/
example : ∃ e, (Expr.v (.m [cube])).derivative (f64Var 1) = .ok e ∧
    (e.entryD 0 0).coeffAt (Finsupp.single 1 1) = .fin (2 * f64Tenth) ∧
    (e.entryD 0 0).coeffAt (Finsupp.single 1 2) = .fin 0 := by
  obtain ⟨e, h1, -, h2⟩ := derivative_monoVec_coeffs (r := 1) (v := f64Var 1) one_pos
    (l := [cube]) (tidy_cube (x := .mono cube) ⟨rfl, by simp [Expr.grid, Vec.entries]⟩ rfl cube_canon rfl) var_ok
  have h3 : ¬cube.degs (f64Var 1).id ≤ 1 := by
    rw [cube_degs, show (f64Var 1).id = 1 from rfl, Finsupp.single_eq_same]
    decide
  refine ⟨e, h1, ?_, ?_⟩
  · rw [h2 0 cube rfl, if_neg h3, cube_degs, show (f64Var 1).id = 1 from rfl, if_pos (by rw [← Finsupp.single_add]),
      Finsupp.single_eq_same]
    show GoNum.mul (F64.fin f64Tenth) (GoNum.ofInt ((3 - 1 : ℕ) : ℤ)) = _
    decide +kernel
  · rw [h2 0 cube rfl, if_neg h3, cube_degs, show (f64Var 1).id = 1 from rfl, if_neg]
    intro h
    have := DFunLike.congr_fun h 1
    simp at this

private theorem poly_canon : (Scalar.poly ⟨[cube]⟩ : Scalar F64).Canon :=
  (⟨by simp, by simpa using cube_canon⟩ : Poly.Canon (⟨[cube]⟩ : Poly F64))

example : ∃ e, (Expr.v (.p [⟨[cube]⟩])).derivative (f64Var 1) = .ok e ∧
    (e.entryD 0 0).coeffAt (Finsupp.single 1 2) = .fin (round53 (3 * f64Tenth)) := by
  have h1 : (Expr.v (.p [⟨[cube]⟩])).derivative (f64Var 1) =
      .ok (.v (.p [⟨[⟨F64.fin (round53 (3 * f64Tenth)), [2], [f64Var 1]⟩]⟩])) := by decide +kernel
  obtain ⟨-, h2⟩ := derivative_polyVec_coeffs (r := 1)
    (tidy_cube (e := .v (.p [⟨[cube]⟩])) (x := .poly ⟨[cube]⟩) ⟨rfl, by simp [Expr.grid, Vec.entries]⟩ rfl
      poly_canon rfl) var_ok h1
  exact ⟨_, h1, (h2 0 one_pos _).trans (cube_deriv (x := .poly ⟨[cube]⟩) rfl)⟩

example : ∃ e, (Expr.m (.p [[⟨[cube]⟩]])).derivative (f64Var 1) = .ok e ∧
    (e.entryD 0 0).coeffAt (Finsupp.single 1 2) = .fin (round53 (3 * f64Tenth)) := by
  have h1 : (Expr.m (.p [[⟨[cube]⟩]])).derivative (f64Var 1) =
      .ok (.m (.p [[⟨[⟨F64.fin (round53 (3 * f64Tenth)), [2], [f64Var 1]⟩]⟩]])) := by decide +kernel
  obtain ⟨-, h2⟩ := derivative_polyMat_coeffs (r := 1) (k := 1)
    (tidy_cube (e := .m (.p [[⟨[cube]⟩]])) (x := .poly ⟨[cube]⟩) ⟨rfl, by simp [Expr.grid, Mat.entries]⟩ rfl
      poly_canon rfl) var_ok h1
  exact ⟨_, h1, (h2 0 one_pos 0 one_pos _).trans (cube_deriv (x := .poly ⟨[cube]⟩) rfl)⟩

end Verif
