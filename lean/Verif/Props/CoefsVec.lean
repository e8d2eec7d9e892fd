import Verif.Props.CoefsProg

/-!
# C93: programs of vectors compute every number of every row by itself

Take any nesting of `Plus`, `Minus`, sums with a number and multiples of vectors, applied to vectors of numbers,
vectors of variables and products of constant matrices with vectors of variables.  The constant and every coefficient of every
row of the result is what the same nesting of `float64` operations gives for that number alone.  For
`l ≤ r`, `l ≥ r` and `l = r` written this way, the differences of these numbers are the linear representation.
-/

set_option linter.unusedSectionVars false

namespace Verif

open MvPolynomial

/-! ## Specification -/

/-- A program of vectors. -/
inductive VLProg : Type
  | k (c : List F64)
  | vars (vs : List (Var F64))
  | mat (rows : List (List F64)) (vs : List (Var F64))
  | plus (a b : VLProg)
  | minus (a b : VLProg)
  | offset (a : VLProg) (c : F64)
  | scale (a : VLProg) (q : ℚ)

/-- The calls. -/
def VLProg.run : VLProg → Go (Expr F64)
  | .k c => pure (.v (.k c))
  | .vars vs => pure (.v (.v vs))
  | .mat rows vs => (Expr.m (.k rows)).mul (.v (.v vs))
  | .plus a b => do (← a.run).plus (← b.run)
  | .minus a b => do (← a.run).minus (← b.run)
  | .offset a c => do (← a.run).plus (.s (.k c))
  | .scale a q => do (← a.run).mul (.s (.k (.fin q)))

/-- The constant of row `i`. -/
def VLProg.const : VLProg → ℕ → F64
  | .k c, i => c.getD i (.fin 0)
  | .vars _, _ | .mat _ _, _ => .fin 0
  | .plus a b, i => GoNum.add (a.const i) (b.const i)
  | .minus a b, i => GoNum.sub (a.const i) (b.const i)
  | .offset a c, i => GoNum.add (a.const i) c
  | .scale a q, i => GoNum.mul (a.const i) (.fin q)

/-- The coefficient of the variable `v` in row `i`. -/
def VLProg.coef : VLProg → ℕ → ℕ → F64
  | .k _, _, _ => .fin 0
  | .vars vs, i, v => if (vs.map (·.id))[i]? = some v then .fin 1 else .fin 0
  | .mat rows vs, i, v => rowSum (rows.getD i []) (vs.map (·.id)) v
  | .plus a b, i, v => GoNum.add (a.coef i v) (b.coef i v)
  | .minus a b, i, v => GoNum.sub (a.coef i v) (b.coef i v)
  | .offset a _, i, v => a.coef i v
  | .scale a q, i, v => GoNum.mul (a.coef i v) (.fin q)

/-- The vectors have length `n`, the matrices fit, the numbers are `float64` numbers, the variables are valid. -/
def VLProg.OK (n : ℕ) : VLProg → Prop
  | .k c => c.length = n ∧ ∀ x ∈ c, x.Value
  | .vars vs => vs.length = n ∧ ∀ v ∈ vs, v.OK
  | .mat rows vs => rows.length = n ∧ vs ≠ [] ∧ (∀ row ∈ rows, row.length = vs.length) ∧
      (∀ row ∈ rows, ∀ x ∈ row, x.Value) ∧ ∀ v ∈ vs, v.OK
  | .plus a b | .minus a b => a.OK n ∧ b.OK n
  | .offset a c => a.OK n ∧ c.Value
  | .scale a q => a.OK n ∧ F64.Able q

/-- The variables that occur in the program. -/
def VLProg.Names : VLProg → Var F64 → Prop
  | .k _, _ => False
  | .vars vs, v | .mat _ vs, v => v ∈ vs
  | .plus a b, v | .minus a b, v => a.Names v ∨ b.Names v
  | .offset a _, v | .scale a _, v => a.Names v

/-! ## Linear coefficient functions -/

open Classical in
/-- The coefficient of the exponents `d`, for a constant and coefficients of variables. -/
private noncomputable def linCo (c : F64) (g : ℕ → F64) (d : ℕ →₀ ℕ) : F64 :=
  if d = 0 then c else if h : ∃ v, d = Finsupp.single v 1 then g h.choose else .fin 0

private theorem linCo_zero (c : F64) (g : ℕ → F64) : linCo c g 0 = c := if_pos rfl

private theorem linCo_single (c : F64) (g : ℕ → F64) (v : ℕ) : linCo c g (Finsupp.single v 1) = g v := by
  unfold linCo
  have h : ∃ w, (Finsupp.single v 1 : ℕ →₀ ℕ) = Finsupp.single w 1 := ⟨v, rfl⟩
  rw [if_neg (by simp), dif_pos h]
  congr 1
  exact ((Finsupp.single_left_inj one_ne_zero).mp h.choose_spec).symm

private theorem linCo_other (c : F64) (g : ℕ → F64) {d : ℕ →₀ ℕ} (h0 : d ≠ 0) (h : ∀ v, d ≠ Finsupp.single v 1) :
    linCo c g d = .fin 0 := by
  unfold linCo
  rw [if_neg h0, dif_neg (by rintro ⟨v, hv⟩; exact h v hv)]

private theorem linCo_ext {f : (ℕ →₀ ℕ) → F64} {c : F64} {g : ℕ → F64} (h0 : f 0 = c)
    (h1 : ∀ v, f (Finsupp.single v 1) = g v) (h2 : ∀ d : ℕ →₀ ℕ, d ≠ 0 → (∀ v, d ≠ Finsupp.single v 1) → f d = .fin 0)
    (d : ℕ →₀ ℕ) : f d = linCo c g d := by
  by_cases e0 : d = 0
  · rw [e0, h0, linCo_zero]
  · by_cases e1 : ∃ v, d = Finsupp.single v 1
    · obtain ⟨v, rfl⟩ := e1
      rw [h1, linCo_single]
    · have e1 : ∀ v, d ≠ Finsupp.single v 1 := fun v hv => e1 ⟨v, hv⟩
      rw [h2 d e0 e1, linCo_other _ _ e0 e1]

/-! ## The induction -/

section Run
variable {U : Var F64 → Prop} {n : ℕ}

/-- Row `i` of the result. -/
private def RowIs (U : Var F64 → Prop) (p : VLProg) (i : ℕ) (s : Scalar F64) : Prop :=
  CRes F64.Value U (degLE 1) (linCo (p.const i) (p.coef i)) s

private theorem RowIs.value {p : VLProg} {i : ℕ} {s : Scalar F64} (h : RowIs U p i s) (d : ℕ →₀ ℕ) :
    (linCo (p.const i) (p.coef i) d).Value := by
  rw [← h.coef]
  exact fco_num f64Laws h.nums

private theorem zero_add_zero : GoNum.add (F64.fin 0) (F64.fin 0) = .fin 0 := f64Laws.add_zero _ f64Laws.zero

private theorem zero_sub_zero : GoNum.sub (F64.fin 0) (F64.fin 0) = .fin 0 := by decide +kernel

private theorem VLProg.run_rows {p : VLProg} (hn : 2 ≤ n) (hp : p.OK n) (hU : ∀ v, p.Names v → U v) :
    Go.Ok p.run fun e => ∃ a, e = .v a ∧ VArr n (RowIs U p) a := by
  have st : ∀ {f : (ℕ →₀ ℕ) → F64}, Stable (CRes F64.Value U (degLE 1) f) :=
    stable_coef f64Laws rearrFree_degLE_one degLE_one_flat
  induction p with
  | k c =>
    refine ⟨_, rfl, _, rfl, LArr.map_iff.mpr ⟨hp.1, fun i x hi => ⟨trivial, numL_single
      (hp.2 x (List.mem_of_getElem? hi)), once_single _, linCo_ext ?_ ?_ ?_⟩⟩⟩
    · simp [VLProg.const, List.getD, hi, Scalar.terms, fco, kToMono, Mono.degs]
    · intro v
      exact (fco_cons _ _).trans (if_neg (Ne.symm (coeff_single_ne v)))
    · intro d h0 _
      exact (fco_cons _ _).trans (if_neg (Ne.symm h0))
  | vars vs =>
    refine ⟨_, rfl, _, rfl, LArr.map_iff.mpr ⟨hp.1, fun i x hi => ?_⟩⟩
    have hx := List.mem_of_getElem? hi
    have hd : x.toMono.degs = Finsupp.single x.id 1 := Var.degs_one _ _ _
    refine ⟨good_mentions (s := .var x) (hp.2 x hx) (single_degLE _ le_rfl) (by rintro w rfl; exact hU _ hx),
      numL_single f64Laws.one, once_single _, linCo_ext ?_ ?_ ?_⟩
    · refine (fco_cons _ _).trans (if_neg ?_)
      rw [hd]
      exact coeff_single_ne _
    · intro v
      refine (fco_cons _ _).trans ?_
      rw [hd]
      simp only [Finsupp.single_left_inj one_ne_zero, VLProg.coef, List.getElem?_map, hi, Option.map_some,
        Option.some.injEq]
      rfl
    · intro d _ h1
      refine (fco_cons _ _).trans (if_neg ?_)
      rw [hd]
      exact (h1 _).symm
  | mat rows vs =>
    obtain ⟨rfl, h1, h2, h3, h4⟩ := hp
    obtain ⟨l, e1, e2, e3⟩ := mat_vars_coeffs hn h1 h2 h3 h4
    refine ⟨_, e1, l, rfl, varr_of e2 fun i hi => ?_⟩
    obtain ⟨c1, c2, c3, c4, c5, c6, c7⟩ := e3 i hi
    exact ⟨good_mentions c1 c2 fun v hv => hU v (c3 v hv), c4, onceL_iff.mpr c5, linCo_ext
      (c6 0 fun v _ => (coeff_single_ne v.id).symm) c7 fun d _ hd => c6 d fun v _ => hd v.id⟩
  | plus a b iha ihb =>
    refine Go.Ok.bind (iha hp.1 fun v hv => hU v (.inl hv)) ?_
    rintro _ ⟨x, rfl, hx⟩
    refine Go.Ok.bind (ihb hp.2 fun v hv => hU v (.inr hv)) ?_
    rintro _ ⟨y, rfl, hy⟩
    refine (Vec.plus_vec_ok (Q := RowIs U (.plus a b)) (by omega) hx (fun _ _ h => h.good.check) hy
      (fun _ _ h => h.good.check) (fun _ _ => st) fun i s t _ hs ht =>
        (Scalar.plus_coef f64Laws rearrFree_degLE_one degLE_one_flat hs.opd ht.opd).mono fun r hr =>
          hr.congr ?_).mono ?_
    · refine linCo_ext ?_ ?_ ?_
      · unfold csum
        rw [hs.coef, ht.coef, linCo_zero, linCo_zero]; rfl
      · intro v
        unfold csum
        rw [hs.coef, ht.coef, linCo_single, linCo_single]; rfl
      · intro d h0 h1
        unfold csum
        rw [hs.coef, ht.coef, linCo_other _ _ h0 h1, linCo_other _ _ h0 h1]
        exact zero_add_zero
    · rintro e ⟨h1, -, h2⟩
      obtain ⟨z, rfl⟩ := h2 (by omega)
      exact ⟨z, rfl, earr_v_iff.mp h1⟩
  | minus a b iha ihb =>
    refine Go.Ok.bind (iha hp.1 fun v hv => hU v (.inl hv)) ?_
    rintro _ ⟨x, rfl, hx⟩
    refine Go.Ok.bind (ihb hp.2 fun v hv => hU v (.inr hv)) ?_
    rintro _ ⟨y, rfl, hy⟩
    obtain ⟨z, h1, h2⟩ := vec_minus_coef f64Laws rearrFree_degLE_one degLE_one_flat hn hx hy
    refine ⟨_, h1, z, rfl, h2.mono fun i s hi hs => hs.congr ?_⟩
    have val := (varr_entry hy hi).value
    have e : ∀ d, GoNum.add (linCo (a.const i) (a.coef i) d) (GoNum.mul (linCo (b.const i) (b.coef i) d) negOne) =
        GoNum.sub (linCo (a.const i) (a.coef i) d) (linCo (b.const i) (b.coef i) d) := fun d => by
      rw [F64.mul_negOne (val d)]; rfl
    refine linCo_ext ?_ ?_ ?_
    · rw [e, linCo_zero, linCo_zero]; rfl
    · intro v
      rw [e, linCo_single, linCo_single]; rfl
    · intro d h0 h1
      rw [e, linCo_other _ _ h0 h1, linCo_other _ _ h0 h1]
      exact zero_sub_zero
  | offset a c ih =>
    refine Go.Ok.bind (ih hp.1 hU) ?_
    rintro _ ⟨x, rfl, hx⟩
    have hk : COpd F64.Value U (degLE 1) (.k c) := ⟨trivial, numL_single hp.2, once_single _⟩
    have k0 : fco 0 (Scalar.k c).terms = c := (fco_cons _ _).trans (if_pos rfl)
    have k1 : ∀ d : ℕ →₀ ℕ, d ≠ 0 → fco d (Scalar.k c).terms = .fin 0 := fun d h =>
      (fco_cons _ _).trans (if_neg (Ne.symm h))
    refine (Vec.plus_scalar_ok (Q := RowIs U (.offset a c)) (by omega) hx (fun _ _ h => h.good.check) (s := .k c) rfl
      (fun _ _ => st) fun i s _ hs =>
        (Scalar.plus_coef f64Laws rearrFree_degLE_one degLE_one_flat hs.opd hk).mono fun r hr => hr.congr ?_).mono ?_
    · refine linCo_ext ?_ ?_ ?_
      · unfold csum
        rw [hs.coef, k0, linCo_zero]; rfl
      · intro v
        unfold csum
        rw [hs.coef, k1 _ (coeff_single_ne v)]
        exact (f64Laws.add_zero _ (hs.value _)).trans (linCo_single _ _ _)
      · intro d h0 h1
        unfold csum
        rw [hs.coef, k1 _ h0, linCo_other _ _ h0 h1]
        exact zero_add_zero
    · rintro e ⟨h1, -, h2⟩
      obtain ⟨z, rfl⟩ := h2 (by omega)
      exact ⟨z, rfl, earr_v_iff.mp h1⟩
  | scale a q ih =>
    refine Go.Ok.bind (ih hp.1 hU) ?_
    rintro _ ⟨x, rfl, hx⟩
    have hk : COpd F64.Value U ∅ (.k (.fin q)) := ⟨trivial, numL_single hp.2, once_single _⟩
    refine (Vec.mulScalar_ok (Q := RowIs U (.scale a q)) (by omega) hx (fun _ _ h => h.good.check) (s := .k (.fin q)) rfl
      (fun _ => .inl ⟨_, rfl⟩) (fun _ _ => st) fun i s _ hs =>
        (Scalar.mul_coef f64ProdLaws rearrFree_degLE_one degLE_one_flat (prodIn_const (degLE 1)) hs.opd hk).mono fun r hr =>
          hr.congr ?_).mono ?_
    · have e : ∀ d, conv s.terms (Scalar.k (.fin q)).terms d = GoNum.mul (linCo (a.const i) (a.coef i) d) (.fin q) :=
        fun d => (conv_const hs.nums hp.2 d).trans (congrArg (GoNum.mul · _) (hs.coef d))
      refine linCo_ext ?_ ?_ ?_
      · rw [e, linCo_zero]; rfl
      · intro v
        rw [e, linCo_single]; rfl
      · intro d h0 h1
        rw [e, linCo_other _ _ h0 h1, F64.zero_mul_fin]
    · rintro e ⟨h1, -, h2⟩
      obtain ⟨z, rfl⟩ := h2 (by omega)
      exact ⟨z, rfl, earr_v_iff.mp h1⟩

end Run

/-! ## The theorems -/

variable {n : ℕ}

/-- C93: the numbers of the result. -/
theorem vlprog_coeffs {p : VLProg} (hn : 2 ≤ n) (hp : p.OK n) :
    ∃ a, p.run = .ok (.v a) ∧ (Expr.v a).Shape n 1 ∧ ∀ i < n,
      ((Expr.v a).entryD i 0).Canon ∧ ((Expr.v a).entryD i 0).TermsIn (degLE 1) ∧
      (∀ v, ((Expr.v a).entryD i 0).Mentions v → p.Names v) ∧ ((Expr.v a).entryD i 0).NumsValid ∧
      ((Expr.v a).entryD i 0).Repeats 1 ∧ ((Expr.v a).entryD i 0).coeffAt 0 = p.const i ∧
      (∀ v, ((Expr.v a).entryD i 0).coeffAt (Finsupp.single v 1) = p.coef i v) ∧
      ∀ d : ℕ →₀ ℕ, d ≠ 0 → (∀ v, d ≠ Finsupp.single v 1) → ((Expr.v a).entryD i 0).coeffAt d = .fin 0 := by
  obtain ⟨e, h1, a, rfl, h2⟩ := VLProg.run_rows (U := p.Names) hn hp fun _ h => h
  refine ⟨a, h1, EArr.shape (Q := fun i _ => RowIs p.Names p i) (earr_v_iff.mpr h2), fun i hi => ?_⟩
  have h := varr_entry h2 hi
  obtain ⟨c1, c2, c3⟩ := good_iff.mp h.good
  exact ⟨c1, c2, c3, h.nums, onceL_iff.mp h.once, (h.coef 0).trans (linCo_zero _ _),
    fun v => (h.coef _).trans (linCo_single _ _ _), fun d h0 h1 => (h.coef d).trans (linCo_other _ _ h0 h1)⟩

/-! ## Linear constraints -/

/-- The two sides of a linear vector constraint, as programs whose numbers are finite; every row keeps a variable. -/
structure VLProgSides (n : ℕ) (l r : VLProg) : Prop where
  rows : 2 ≤ n
  lok : l.OK n
  rok : r.OK n
  bounds : ∀ v, l.Names v ∨ r.Names v → v.BoundsOK
  consts : ∀ i < n, (∃ q, l.const i = .fin q) ∧ (∃ q, r.const i = .fin q) ∧ ∃ q, GoNum.sub (l.const i) (r.const i) = .fin q
  coefs : ∀ i < n, ∀ v, (∃ q, l.coef i v = .fin q) ∧ (∃ q, r.coef i v = .fin q) ∧
    ∃ q, GoNum.sub (l.coef i v) (r.coef i v) = .fin q
  varies : ∀ i < n, ∃ v, l.coef i v ≠ r.coef i v

section Constraint
variable {l r : VLProg} {ws : List (Var F64)}

theorem VLProgSides.sides (h : VLProgSides n l r) {s : Sense} (hs : s.OK) :
    ∃ a b, l.run = .ok (.v a) ∧ r.run = .ok (.v b) ∧
      (⟨a, b, s⟩ : VCon F64).LinearFloats n ∧
      (Comparable (Expr.v a) (.v b) → (Expr.v a).comparison (.v b) s = .ok (.v ⟨a, b, s⟩)) ∧
      (∀ i < n, ∀ v, ((⟨a, b, s⟩ : VCon F64).row i).Mentions v → l.Names v ∨ r.Names v) ∧
      (∀ i < n, ((⟨a, b, s⟩ : VCon F64).row i).FiniteDiff) ∧
      (∀ i < n, ((⟨a, b, s⟩ : VCon F64).row i).Varies) ∧
      (∀ i < n, ∀ w, ((⟨a, b, s⟩ : VCon F64).row i).rowAt w = GoNum.sub (l.coef i w.id) (r.coef i w.id)) ∧
      ∀ i < n, ((⟨a, b, s⟩ : VCon F64).row i).boundAt = GoNum.sub (r.const i) (l.const i) := by
  obtain ⟨a, a1, a2, a3⟩ := vlprog_coeffs h.rows h.lok
  obtain ⟨b, b1, b2, b3⟩ := vlprog_coeffs h.rows h.rok
  have fin : ∀ {p : VLProg} {s : Scalar F64} {i : ℕ}, s.coeffAt 0 = p.const i →
      (∀ v, s.coeffAt (Finsupp.single v 1) = p.coef i v) →
      (∀ d : ℕ →₀ ℕ, d ≠ 0 → (∀ v, d ≠ Finsupp.single v 1) → s.coeffAt d = .fin 0) →
      (∃ q, p.const i = .fin q) → (∀ v, ∃ q, p.coef i v = .fin q) → ∀ d, ∃ q, s.coeffAt d = .fin q := by
    intro p s i h0 h1 h2 f0 f1 d
    by_cases e0 : d = 0
    · rw [e0, h0]; exact f0
    · by_cases e1 : ∃ v, d = Finsupp.single v 1
      · obtain ⟨v, rfl⟩ := e1
        rw [h1]; exact f1 v
      · exact ⟨0, h2 d e0 fun v hv => e1 ⟨v, hv⟩⟩
  have hLF : (⟨a, b, s⟩ : VCon F64).LinearFloats n := by
    refine ⟨h.rows, ⟨?_, ?_, ⟨n, 1, a2, b2, by have := h.rows; omega, one_pos⟩, hs⟩, a2, b2, fun i hi => ?_⟩
    · exact (earr_v_iff.mpr (varr_of (Q := fun _ => Scalar.Canon) a2 fun i hi => (a3 i hi).1)).all fun i j a h => h
    · exact (earr_v_iff.mpr (varr_of (Q := fun _ => Scalar.Canon) b2 fun i hi => (b3 i hi).1)).all fun i j a h => h
    · obtain ⟨c1, c2, c3, c4, c5, c6, c7, c8⟩ := a3 i hi
      obtain ⟨d1, d2, d3, d4, d5, d6, d7, d8⟩ := b3 i hi
      exact ⟨⟨c1, d1, hs⟩, ⟨c2, d2⟩,
        floats_of_coeffs c4 c5 (fin c6 c7 c8 (h.consts i hi).1 fun v => (h.coefs i hi v).1),
        floats_of_coeffs d4 d5 (fin d6 d7 d8 (h.consts i hi).2.1 fun v => (h.coefs i hi v).2.1), c5, d5,
        fun v hv => h.bounds v (hv.imp (c3 v) (d3 v))⟩
  refine ⟨a, b, a1, b1, hLF, fun hc => ?_, fun i hi v hv => hv.imp ((a3 i hi).2.2.1 v) ((b3 i hi).2.2.1 v),
    fun i hi d => ?_, fun i hi => ?_, fun i hi w => ?_, fun i hi => ?_⟩
  · obtain ⟨c, e1, e2, e3, e4⟩ := comparison_sides (a := .v a) (e := .v b) (by have := h.rows; omega) hLF.canon.left a2
      hLF.canon.right b2 hc s
    rw [e1]
    cases c with
    | v c =>
      obtain ⟨x, y, t⟩ := c
      cases e2
      cases e3
      cases e4
      rfl
    | _ => cases e2
  · obtain ⟨c1, c2, c3, c4, c5, c6, c7, c8⟩ := a3 i hi
    obtain ⟨d1, d2, d3, d4, d5, d6, d7, d8⟩ := b3 i hi
    show ∃ q, GoNum.sub (((Expr.v a).entryD i 0).coeffAt d) (((Expr.v b).entryD i 0).coeffAt d) = .fin q
    by_cases e0 : d = 0
    · rw [e0, c6, d6]; exact (h.consts i hi).2.2
    · by_cases e1 : ∃ v, d = Finsupp.single v 1
      · obtain ⟨v, rfl⟩ := e1
        rw [c7, d7]; exact (h.coefs i hi v).2.2
      · have e1 : ∀ v, d ≠ Finsupp.single v 1 := fun v hv => e1 ⟨v, hv⟩
        rw [c8 d e0 e1, d8 d e0 e1]
        exact ⟨0, zero_sub_zero⟩
  · obtain ⟨v, hv⟩ := h.varies i hi
    refine ⟨v, fun he => hv ?_⟩
    have e1 := coeffAt_exact (hLF.each i hi).lfloats (hLF.each i hi).lonce (Finsupp.single v 1)
    have e2 := coeffAt_exact (hLF.each i hi).rfloats (hLF.each i hi).ronce (Finsupp.single v 1)
    rw [he, ← e2] at e1
    exact ((a3 i hi).2.2.2.2.2.2.1 v).symm.trans (e1.trans ((b3 i hi).2.2.2.2.2.2.1 v))
  · exact congrArg₂ GoNum.sub ((a3 i hi).2.2.2.2.2.2.1 _) ((b3 i hi).2.2.2.2.2.2.1 _)
  · exact congrArg₂ GoNum.sub (b3 i hi).2.2.2.2.2.1 (a3 i hi).2.2.2.2.2.1

variable (h : VLProgSides n l r) (hne : ws ≠ []) (hok : ∀ w ∈ ws, w.OK ∧ w.BoundsOK) (hnd : (ws.map (·.id)).Nodup)
  (hcov : ∀ v, l.Names v ∨ r.Names v → v.id ∈ ws.map (·.id))
include h hne hok hnd hcov

/-- C93: the linear representation of a vector inequality between programs: each number is computed by itself.
The comparison is refused for vectors of monomials against vectors of polynomials (C33). -/
theorem vlprog_inequality {s : Sense} (hs : s = .le ∨ s = .ge) :
    ∃ a b, l.run = .ok (.v a) ∧ r.run = .ok (.v b) ∧ (Comparable (Expr.v a) (.v b) →
      ∃ c, (Expr.v a).comparison (.v b) s = .ok (.v c) ∧
        c.linearIneq [ws] = .ok ((List.range n).map fun i => ws.map fun w =>
            s.orient (GoNum.sub (l.coef i w.id) (r.coef i w.id)),
          (List.range n).map fun i => s.orient (GoNum.sub (r.const i) (l.const i)))) := by
  obtain ⟨a, b, h1, h2, h3, h4, h5, h6, h7, h8, h9⟩ := h.sides (s := s) (.inr hs)
  refine ⟨a, b, h1, h2, fun hc => ⟨_, h4 hc, ?_⟩⟩
  rw [vec_linearIneq_coeffs h3 (by rcases hs with rfl | rfl <;> simp) hne hok hnd (fun i hi v hv => hcov v (h5 i hi v hv))
    h6 h7]
  refine congrArg Except.ok (Prod.ext (List.map_congr_left fun i hi => List.map_congr_left fun w _ => ?_)
    (List.map_congr_left fun i hi => ?_))
  · rw [h8 i (List.mem_range.mp hi)]
  · rw [h9 i (List.mem_range.mp hi)]

/-- C93: the same for an equality. -/
theorem vlprog_equality :
    ∃ a b, l.run = .ok (.v a) ∧ r.run = .ok (.v b) ∧ (Comparable (Expr.v a) (.v b) →
      ∃ c, (Expr.v a).eqTo (.v b) = .ok (.v c) ∧
        c.linearEq [ws] = .ok ((List.range n).map fun i => ws.map fun w => GoNum.sub (l.coef i w.id) (r.coef i w.id),
          (List.range n).map fun i => GoNum.sub (r.const i) (l.const i))) := by
  obtain ⟨a, b, h1, h2, h3, h4, h5, h6, h7, h8, h9⟩ := h.sides (s := .eq) (.inl rfl)
  refine ⟨a, b, h1, h2, fun hc => ⟨_, h4 hc, ?_⟩⟩
  rw [vec_linearEq_coeffs h3 rfl hne hok hnd (fun i hi v hv => hcov v (h5 i hi v hv)) h6 h7]
  refine congrArg Except.ok (Prod.ext (List.map_congr_left fun i hi => List.map_congr_left fun w _ => ?_)
    (List.map_congr_left fun i hi => ?_))
  · rw [h8 i (List.mem_range.mp hi)]
  · rw [h9 i (List.mem_range.mp hi)]

end Constraint

/-! ## Examples -/

/-- `A·(x, y) - 0.1 (x, y)` for `A = ((1, 2), (3, 4))`. -/
def wVSum : VLProg := .minus (.mat [[.fin 1, .fin 2], [.fin 3, .fin 4]] [f64Var 1, f64Var 2])
  (.scale (.vars [f64Var 1, f64Var 2]) f64Tenth)

private theorem able_tenth : F64.Able f64Tenth := by
  obtain ⟨q, h1, h2⟩ : F64.IsFloat (.fin f64Tenth) := ⟨f64Tenth, rfl, by decide +kernel⟩
  cases h1
  exact h2

private theorem small {k : ℤ} (h : |k| ≤ 2 ^ 53) : F64.Value (.fin k) := F64.able_small h

theorem wVSum_ok : wVSum.OK 2 := by
  refine ⟨⟨rfl, by simp, by simp, ?_, ?_⟩, ⟨rfl, ?_⟩, able_tenth⟩
  · simp only [List.mem_cons, List.not_mem_nil, or_false, forall_eq_or_imp, forall_eq]
    exact ⟨⟨small (k := 1) (by norm_num), small (k := 2) (by norm_num)⟩, small (k := 3) (by norm_num),
      small (k := 4) (by norm_num)⟩
  all_goals
    simp only [List.mem_cons, List.not_mem_nil, or_false, forall_eq_or_imp, forall_eq]
    exact ⟨rfl, rfl⟩

private theorem finite_of {x : F64} (h : (match x with | .fin _ => true | _ => false) = true) : ∃ q, x = .fin q := by
  cases x with
  | fin q => exact ⟨q, rfl⟩
  | _ => simp at h

private theorem wVSum_names {v : Var F64} (h : wVSum.Names v) : v = f64Var 1 ∨ v = f64Var 2 := by
  rcases h with h | h <;> simpa [VLProg.Names] using h

private theorem wVSum_sides : VLProgSides 2 wVSum (.k [.fin f64Tenth, .fin 7]) where
  rows := le_rfl
  lok := wVSum_ok
  rok := by
    refine ⟨rfl, ?_⟩
    simp only [List.mem_cons, List.not_mem_nil, or_false, forall_eq_or_imp, forall_eq]
    exact ⟨able_tenth, small (k := 7) (by norm_num)⟩
  bounds := by
    rintro v (h | h)
    · rcases wVSum_names h with rfl | rfl <;> exact f64Var_bounds _
    · exact h.elim
  consts := by
    intro i hi
    have : i = 0 ∨ i = 1 := by omega
    rcases this with rfl | rfl <;>
      exact ⟨finite_of (by decide +kernel), finite_of (by decide +kernel), finite_of (by decide +kernel)⟩
  coefs := by
    intro i hi v
    have : i = 0 ∨ i = 1 := by omega
    by_cases h1 : v = 1
    · subst h1
      rcases this with rfl | rfl <;>
        exact ⟨finite_of (by decide +kernel), finite_of (by decide +kernel), finite_of (by decide +kernel)⟩
    · by_cases h2 : v = 2
      · subst h2
        rcases this with rfl | rfl <;>
          exact ⟨finite_of (by decide +kernel), finite_of (by decide +kernel), finite_of (by decide +kernel)⟩
      · have e : wVSum.coef i v = GoNum.sub (.fin 0) (GoNum.mul (.fin 0) (.fin f64Tenth)) := by
          rcases this with rfl | rfl <;> simp [wVSum, VLProg.coef, rowSum, f64Var, Ne.symm h1, Ne.symm h2]
        rw [e, show (VLProg.k [F64.fin f64Tenth, F64.fin 7]).coef i v = .fin 0 from rfl]
        exact ⟨finite_of (by decide +kernel), finite_of (by decide +kernel), finite_of (by decide +kernel)⟩
  varies := by
    intro i hi
    have : i = 0 ∨ i = 1 := by omega
    refine ⟨1, ?_⟩
    rcases this with rfl | rfl <;> decide +kernel

/-- The representation of `A·(x, y) - 0.1 (x, y) ≤ (0.1, 7)`: `A` minus a tenth of the identity. -/
example : ∃ a c, wVSum.run = .ok (.v a) ∧ (Expr.v a).lessEq (.v (.k [.fin f64Tenth, .fin 7])) = .ok (.v c) ∧
    c.linearIneq [[f64Var 1, f64Var 2]] =
      .ok ([[GoNum.sub (.fin 1) (.fin f64Tenth), .fin 2], [.fin 3, GoNum.sub (.fin 4) (.fin f64Tenth)]],
        [.fin f64Tenth, .fin 7]) := by
  obtain ⟨a, b, h1, h2, h3⟩ := vlprog_inequality (ws := [f64Var 1, f64Var 2]) (s := .le) wVSum_sides (by simp)
    (by
      simp only [List.mem_cons, List.not_mem_nil, or_false, forall_eq_or_imp, forall_eq]
      exact ⟨⟨rfl, f64Var_bounds _⟩, rfl, f64Var_bounds _⟩)
    (by simp [f64Var]) (by
      rintro v (h | h)
      · rcases wVSum_names h with rfl | rfl <;> simp
      · exact h.elim) (.inl rfl)
  cases h2
  obtain ⟨c, h4, h5⟩ := h3 (by cases a <;> trivial)
  refine ⟨a, c, h1, h4, h5.trans ?_⟩
  decide +kernel

end Verif
