import Verif.Props.CoefsQuad
import Verif.Props.Program
import Verif.Lemmas.RoundSubst

/-!
# C92: programs of sums, multiples and derivatives compute coefficient by coefficient

Take any nesting of `Plus`, `Minus`, multiplication with a number or a variable on either side, simplification and
`DerivativeWrt`.  Every coefficient of the result is what the same nesting of `float64` operations gives for
that coefficient alone: other coefficients, the order of terms, and the kinds of the intermediate results have
no influence, not even on the last bit.  For an inequality or equality written this way these numbers are the
linear representation.
-/

set_option linter.unusedSectionVars false

namespace Verif

open MvPolynomial

/-! ## Specification -/

/-- A program of sums, differences, multiples and derivatives. -/
inductive LProg : Type
  | k (c : F64)
  | var (v : Var F64)
  | plus (a b : LProg)
  | minus (a b : LProg)
  | scale (a : LProg) (q : ℚ)
  | scaleL (q : ℚ) (a : LProg)
  | shift (a : LProg) (v : Var F64)
  | shiftL (v : Var F64) (a : LProg)
  | simp (a : LProg)
  | deriv (a : LProg) (v : Var F64)

/-- The calls. -/
def LProg.toProg : LProg → Prog F64
  | .k c => .k c
  | .var v => .var v
  | .plus a b => .plus a.toProg b.toProg
  | .minus a b => .minus a.toProg b.toProg
  | .scale a q => .mul a.toProg (.k (.fin q))
  | .scaleL q a => .mul (.k (.fin q)) a.toProg
  | .shift a v => .mul a.toProg (.var v)
  | .shiftL v a => .mul (.var v) a.toProg
  | .simp a => .simp a.toProg
  | .deriv a v => .deriv a.toProg v

/-- The coefficient of `d`, computed for `d` alone. -/
noncomputable def LProg.coefAt : LProg → (ℕ →₀ ℕ) → F64
  | .k c, d => if d = 0 then c else .fin 0
  | .var v, d => if d = Finsupp.single v.id 1 then .fin 1 else .fin 0
  | .plus a b, d => GoNum.add (a.coefAt d) (b.coefAt d)
  | .minus a b, d => GoNum.sub (a.coefAt d) (b.coefAt d)
  | .scale a q, d | .scaleL q a, d => GoNum.mul (a.coefAt d) (.fin q)
  | .shift a v, d | .shiftL v a, d => if d v.id = 0 then .fin 0 else a.coefAt (d - Finsupp.single v.id 1)
  | .simp a, d => a.coefAt d
  | .deriv a v, d => GoNum.mul (a.coefAt (d + Finsupp.single v.id 1)) (GoNum.ofInt ((d v.id + 1 : ℕ) : ℤ))

/-- How many derivatives are nested. -/
def LProg.derivs : LProg → ℕ
  | .k _ | .var _ => 0
  | .plus a b | .minus a b => max a.derivs b.derivs
  | .scale a _ | .scaleL _ a | .shift a _ | .shiftL _ a | .simp a => a.derivs
  | .deriv a _ => a.derivs + 1

/-- The numbers are `float64` numbers and the variables are valid. -/
def LProg.OK : LProg → Prop
  | .k c => c.Value
  | .var v => v.OK
  | .plus a b | .minus a b => a.OK ∧ b.OK
  | .scale a q | .scaleL q a => a.OK ∧ F64.Able q
  | .shift a v | .shiftL v a => a.OK ∧ v.OK
  | .simp a => a.OK
  | .deriv a v => a.OK ∧ v.OK

/-! ## The induction -/

theorem ofInt_small {n : ℕ} (h : n ≤ 2 ^ 53) : (GoNum.ofInt (n : ℤ) : F64) = .fin n := by
  show F64.ofRat ((n : ℤ) : ℚ) = F64.fin n
  have : F64.Able (((n : ℤ) : ℚ)) := F64.able_small (k := n) (by
    rw [abs_of_nonneg (by positivity)]
    exact_mod_cast h)
  rw [show F64.ofRat ((n : ℤ) : ℚ) = .fin ((n : ℤ) : ℚ) from this]
  norm_cast

private theorem derivAt_small (s : Scalar F64) (i : ℕ) (d : ℕ →₀ ℕ) (h : d i + 1 ≤ 2 ^ 53) :
    s.derivAt i d = GoNum.mul (s.coeffAt (d + Finsupp.single i 1)) (GoNum.ofInt ((d i + 1 : ℕ) : ℤ)) := by
  unfold Scalar.derivAt
  split
  · rfl
  · rename_i hn
    rw [show s.coeffAt (d + Finsupp.single i 1) = .fin 0 from fco_none fun m hm e => hn ⟨m, hm, e⟩, ofInt_small h,
      F64.zero_mul_fin]

theorem conv_const {s : Scalar F64} (hs : NumL F64.Value s.terms) {q : ℚ} (hq : F64.Able q) (d : ℕ →₀ ℕ) :
    conv s.terms [kToMono (.fin q)] d = GoNum.mul (s.coeffAt d) (.fin q) := by
  rw [conv_single f64ProdLaws (r := kToMono (F64.fin q)) hs hq]
  refine (timesTerm_fin s 0 q d).trans ?_
  rw [if_pos (zero_le (a := d)), tsub_zero]

/-! ## The exponents of a derivative -/

private theorem derivStep_exps {m : Mono F64} (hm : m.Canon) {v : Var F64} (hv : v.OK) (acc : List (Mono F64)) :
    ∃ o, derivStep v acc m = .ok (acc ++ o) ∧
      (o = [] ∨ ∃ d, o = [d] ∧ d.degs + Finsupp.single v.id 1 = m.degs) := by
  unfold derivStep
  by_cases hc : m.isConstant = true
  · rw [if_pos hc]
    exact ⟨[], by simp [Go.pure_eq], Or.inl rfl⟩
  · rw [if_neg hc]
    obtain ⟨r, h1, h2⟩ := Mono.derivative_ok hm hv
    rw [h1, Go.ok_bind]
    cases h2 with
    | absent h =>
      refine ⟨[], ?_, Or.inl rfl⟩
      simp only
      rw [if_pos (by rfl)]
      simp [Go.pure_eq]
    | linear w hw he hwv =>
      simp only
      split
      · exact ⟨[], by simp [Go.pure_eq], Or.inl rfl⟩
      · refine ⟨[kToMono m.coeff], rfl, Or.inr ⟨_, rfl, ?_⟩⟩
        have h1 : m.degs = Finsupp.single v.id 1 :=
          (hm.degs_eq_single v.id).mpr ⟨he, by simp [hw, hwv]⟩
        rw [h1]
        simp [Mono.degs, kToMono]
    | erase d hd hdv hdc hdeg h1 => exact ⟨[d], rfl, Or.inr ⟨d, rfl, hdeg⟩⟩
    | dec d e hd hdv hdc hdeg he h2 => exact ⟨[d], rfl, Or.inr ⟨d, rfl, hdeg⟩⟩

private theorem derivFold_exps {v : Var F64} (hv : v.OK) (l : List (Mono F64)) (hl : ∀ m ∈ l, m.Canon)
    (acc : List (Mono F64)) : ∃ out, l.foldlM (derivStep v) acc = .ok (acc ++ out) ∧
      ∀ d ∈ out, ∃ m ∈ l, d.degs + Finsupp.single v.id 1 = m.degs := by
  induction l generalizing acc with
  | nil => exact ⟨[], by simp [Go.pure_eq], by simp⟩
  | cons m l ih =>
    obtain ⟨o, h1, h2⟩ := derivStep_exps (hl m (by simp)) hv acc
    obtain ⟨out, h3, h4⟩ := ih (fun m hm => hl m (by simp [hm])) (acc ++ o)
    refine ⟨o ++ out, ?_, ?_⟩
    · rw [List.foldlM_cons, h1, Go.ok_bind, h3, List.append_assoc]
    · intro d hd
      rcases List.mem_append.mp hd with hd | hd
      · rcases h2 with rfl | ⟨d', rfl, h2⟩
        · simp at hd
        · rw [List.mem_singleton] at hd
          exact ⟨m, by simp, hd ▸ h2⟩
      · obtain ⟨m', h6, h7⟩ := h4 d hd
        exact ⟨m', by simp [h6], h7⟩

private theorem derivative_terms {D E : Set (ℕ →₀ ℕ)} {e r : Scalar F64} (he : e.Canon) (te : e.TermsIn D)
    {v : Var F64} (hv : v.OK) (hDE : ∀ d, d + Finsupp.single v.id 1 ∈ D → d ∈ E) (h : e.derivative v = .ok r) :
    r.TermsIn E := by
  have nz : ∀ {m : Mono F64} {d : ℕ →₀ ℕ}, m.vars = [] → d + Finsupp.single v.id 1 ≠ m.degs := by
    intro m d hv hd
    have h1 : m.degs = 0 := by
      unfold Mono.degs
      rw [hv]
      simp
    have := DFunLike.congr_fun (hd.trans h1) v.id
    simp at this
  cases e with
  | k c =>
    simp only [Scalar.derivative, Go.pure_eq, Except.ok.injEq] at h
    exact h ▸ trivial
  | var w =>
    simp only [Scalar.derivative] at h
    obtain ⟨-, -, h⟩ := Go.bind_eq_ok.mp h
    obtain ⟨-, -, h⟩ := Go.bind_eq_ok.mp h
    split at h
    all_goals
      simp only [Go.pure_eq, Except.ok.injEq] at h
      exact h ▸ trivial
  | mono m =>
    have hm : m.Canon := he
    obtain ⟨r', h1, h2⟩ := Mono.derivative_ok hm hv
    change m.derivative v = .ok r at h
    rw [h, Except.ok.injEq] at h1
    subst h1
    have key : ∀ d : Mono F64, d.degs + Finsupp.single v.id 1 = m.degs → d.degs ∈ E := by
      intro d hd
      rcases te with hv0 | hmD
      · exact absurd hd (nz hv0)
      · exact hDE _ (hd ▸ hmD)
    cases h2 with
    | absent _ => exact trivial
    | linear _ _ _ _ => exact trivial
    | erase d hd hdv hdc hdeg h1 => exact Or.inr (key d hdeg)
    | dec d e hd hdv hdc hdeg he h2 => exact Or.inr (key d hdeg)
  | poly p =>
    have hp : p.Canon := he
    change p.derivative v = .ok r at h
    unfold Poly.derivative at h
    obtain ⟨-, -, h⟩ := Go.bind_eq_ok.mp h
    obtain ⟨-, -, h⟩ := Go.bind_eq_ok.mp h
    obtain ⟨out, h1, h2⟩ := derivFold_exps hv p.monos hp.all []
    rw [h1, Go.ok_bind, List.nil_append] at h
    split at h
    · simp only [Go.pure_eq, Except.ok.injEq] at h
      exact h ▸ trivial
    · simp only [Go.pure_eq, Except.ok.injEq] at h
      subst h
      intro d hd
      obtain ⟨m, hm, hdeg⟩ := h2 d hd
      rcases te m hm with hv0 | hmD
      · exact absurd hdeg (nz hv0)
      · exact Or.inr (hDE _ (hdeg ▸ hmD))

section Run
variable {U : Var F64 → Prop}

private structure Out (U : Var F64 → Prop) (D : Set (ℕ →₀ ℕ)) (p : LProg) (e : Scalar F64) : Prop where
  opd : COpd F64.Value U D e
  coef : ∀ d : ℕ →₀ ℕ, (∀ i, d i + p.derivs ≤ 2 ^ 53) → fco d e.terms = p.coefAt d

private theorem COpd.self {D : Set (ℕ →₀ ℕ)} {s : Scalar F64} (h : COpd F64.Value U D s) :
    CRes F64.Value U D (fun d => fco d s.terms) s := ⟨h.good, h.nums, h.once, fun _ => rfl⟩

private theorem COpd.mono {D E : Set (ℕ →₀ ℕ)} {s : Scalar F64} (h : COpd F64.Value U D s) (hDE : D ⊆ E) :
    COpd F64.Value U E s := by
  obtain ⟨h1, h2, h3⟩ := good_iff.mp h.good
  exact ⟨good_iff.mpr ⟨h1, h2.mono hDE, h3⟩, h.nums, h.once⟩

private theorem Out.of {D : Set (ℕ →₀ ℕ)} {p : LProg} {f : (ℕ →₀ ℕ) → F64} {e : Scalar F64} (h : CRes F64.Value U D f e)
    (hc : ∀ d : ℕ →₀ ℕ, (∀ i, d i + p.derivs ≤ 2 ^ 53) → f d = p.coefAt d) : Out U D p e :=
  ⟨h.opd, fun d hd => (h.coef d).trans (hc d hd)⟩

private theorem copd_k {D : Set (ℕ →₀ ℕ)} {c : F64} (h : c.Value) : COpd F64.Value U D (.k c) :=
  ⟨trivial, numL_single h, once_single _⟩

private theorem copd_v {D : Set (ℕ →₀ ℕ)} {v : Var F64} (hv : v.OK) (hD : Finsupp.single v.id 1 ∈ D) (hU : U v) :
    COpd F64.Value U D (.var v) :=
  ⟨good_mentions (s := .var v) hv hD (by rintro w rfl; exact hU), numL_single f64Laws.one, once_single _⟩

private theorem LProg.run_out {p : LProg} {D : Set (ℕ →₀ ℕ)} (hf : p.toProg.Fits D) (hp : p.OK)
    (hU : ∀ v, p.toProg.Names v → U v) : Go.Ok p.toProg.run (Out U D p) := by
  induction p generalizing D with
  | k c =>
    refine ⟨_, rfl, copd_k hp, fun d _ => ?_⟩
    show (if _ then _ else _) = if _ then _ else _
    rw [kToMono_degs]
    simp only [eq_comm (a := (0 : ℕ →₀ ℕ))]
    rfl
  | var v =>
    cases hf with
    | var h hv =>
      refine ⟨_, rfl, copd_v hp hv (hU v rfl), fun d _ => ?_⟩
      show (if _ then _ else _) = if _ then _ else _
      have hd : v.toMono.degs = Finsupp.single v.id 1 := Var.degs_one _ _ _
      rw [hd]
      simp only [eq_comm (a := Finsupp.single v.id 1)]
      rfl
  | plus a b iha ihb =>
    cases hf with
    | plus ha hb h h1 h2 =>
      refine Go.Ok.bind (iha ha hp.1 fun v hv => hU v (.inl hv)) fun x hx =>
        Go.Ok.bind (ihb hb hp.2 fun v hv => hU v (.inr hv)) fun y hy => ?_
      refine (Scalar.plus_coef f64Laws h.free h.flat (hx.opd.mono h1) (hy.opd.mono h2)).mono fun r hr =>
        Out.of hr fun d hd => ?_
      simp only [LProg.derivs] at hd
      unfold csum
      rw [hx.coef d fun i => (by have := hd i; omega), hy.coef d fun i => (by have := hd i; omega)]
      rfl
  | minus a b iha ihb =>
    cases hf with
    | minus ha hb h h1 h2 =>
      refine Go.Ok.bind (iha ha hp.1 fun v hv => hU v (.inl hv)) fun x hx =>
        Go.Ok.bind (ihb hb hp.2 fun v hv => hU v (.inr hv)) fun y hy => ?_
      refine (Scalar.minus_coef f64Laws h.free h.flat (hx.opd.mono h1) (hy.opd.mono h2)).mono fun r hr =>
        Out.of hr fun d hd => ?_
      simp only [LProg.derivs] at hd
      rw [cdiff_sub hy.opd.nums, hx.coef d fun i => (by have := hd i; omega),
        hy.coef d fun i => (by have := hd i; omega)]
      rfl
  | scale a q ih =>
    cases hf with
    | mul ha hb h h1 =>
      refine Go.Ok.bind (ih ha hp.1 fun v hv => hU v (.inl hv)) fun x hx => ?_
      refine (Scalar.mul_coef f64ProdLaws h.free h.flat h1 hx.opd (copd_k (c := .fin q) hp.2)).mono fun r hr =>
        Out.of hr fun d hd => ?_
      refine (conv_const hx.opd.nums hp.2 d).trans ?_
      exact congrArg (GoNum.mul · _) (hx.coef d hd)
  | scaleL q a ih =>
    cases hf with
    | mul hb ha h h1 =>
      refine Go.Ok.bind (P := fun x => x = Scalar.k (.fin q)) ⟨_, rfl, rfl⟩ ?_
      rintro _ rfl
      refine Go.Ok.bind (ih ha hp.1 fun v hv => hU v (.inr hv)) fun x hx => ?_
      refine (Scalar.mul_coef f64ProdLaws h.free h.flat h1 (copd_k (c := .fin q) hp.2) hx.opd).mono fun r hr =>
        Out.of hr fun d hd => ?_
      refine ((conv_comm_single f64ProdLaws (m := kToMono (F64.fin q)) hx.opd.nums hx.opd.once hp.2).symm.trans
        (conv_const hx.opd.nums hp.2 d)).trans ?_
      exact congrArg (GoNum.mul · _) (hx.coef d hd)
  | shift a v ih =>
    cases hf with
    | mul ha hb h h1 =>
      cases hb with
      | var h' hv' =>
        refine Go.Ok.bind (ih ha hp.1 fun v hv => hU v (.inl hv)) fun x hx => ?_
        refine (Scalar.mul_coef f64ProdLaws h.free h.flat h1 hx.opd (copd_v hp.2 hv' (hU v (.inr rfl)))).mono
          fun r hr => Out.of hr fun d hd => ?_
        refine (conv_var_coef hx.opd.self v d).trans ?_
        show (if _ then _ else fco _ _) = if _ then _ else _
        rw [hx.coef _ fun i => le_trans (Nat.add_le_add_right (by
          rw [Finsupp.tsub_apply]; exact Nat.sub_le _ _) _) (hd i)]
  | shiftL v a ih =>
    cases hf with
    | mul hb ha h h1 =>
      cases hb with
      | var h' hv' =>
        refine Go.Ok.bind (P := fun x => x = Scalar.var v) ⟨_, rfl, rfl⟩ ?_
        rintro _ rfl
        refine Go.Ok.bind (ih ha hp.1 fun v hv => hU v (.inr hv)) fun x hx => ?_
        refine (Scalar.mul_coef f64ProdLaws h.free h.flat h1 (copd_v hp.2 hv' (hU v (.inl rfl))) hx.opd).mono
          fun r hr => Out.of hr fun d hd => ?_
        refine ((conv_comm_single f64ProdLaws (m := v.toMono) hx.opd.nums hx.opd.once f64Laws.one).symm.trans
          (conv_var_coef hx.opd.self v d)).trans ?_
        show (if _ then _ else fco _ _) = if _ then _ else _
        rw [hx.coef _ fun i => le_trans (Nat.add_le_add_right (by
          rw [Finsupp.tsub_apply]; exact Nat.sub_le _ _) _) (hd i)]
  | simp a ih =>
    cases hf with
    | simp ha h h1 =>
      refine Go.Ok.bind (ih ha hp hU) fun x hx => ?_
      exact ((hx.opd.mono h1).self.simp f64Laws h.free h.flat).mono fun r hr => Out.of hr fun d hd => hx.coef d hd
  | deriv a v ih =>
    cases hf with
    | deriv ha h h1 =>
      refine Go.Ok.bind (ih ha hp.1 fun v hv => hU v (.inl hv)) fun x hx => ?_
      obtain ⟨c1, c2, c3⟩ := good_iff.mp hx.opd.good
      obtain ⟨r, r1, r2, r3, r4⟩ := derivative_coeffs_exact c1 hx.opd.nums (onceL_iff.mp hx.opd.once) hp.2
      obtain ⟨r', r1', r5, r6⟩ := derivative_total c1 hp.2
      obtain rfl : r = r' := by rw [r1] at r1'; cases r1'; rfl
      refine ⟨r, r1, ⟨good_iff.mpr ⟨r5, derivative_terms c1 c2 hp.2 h1 r1, fun w hw => c3 w (r6 w hw)⟩, r2,
        onceL_iff.mpr r3⟩, fun d hd => (r4 d).trans ?_⟩
      simp only [LProg.derivs] at hd
      rw [derivAt_small x v.id d (by have := hd v.id; omega)]
      refine congrArg (GoNum.mul · _) (hx.coef _ fun i => ?_)
      have := hd i
      have h2 : (Finsupp.single v.id 1 : ℕ →₀ ℕ) i ≤ 1 := by
        rw [Finsupp.single_apply]; split <;> omega
      rw [Finsupp.add_apply]
      omega

end Run

/-! ## The theorems -/

/-- C92: the coefficients of the result. -/
theorem lprog_coeffs {p : LProg} {D : Set (ℕ →₀ ℕ)} (hf : p.toProg.Fits D) (hp : p.OK) :
    ∃ e, p.toProg.run = .ok e ∧ e.Canon ∧ e.TermsIn D ∧ (∀ v, e.Mentions v → p.toProg.Names v) ∧ e.NumsValid ∧
      e.Repeats 1 ∧ ∀ d : ℕ →₀ ℕ, (∀ i, d i + p.derivs ≤ 2 ^ 53) → e.coeffAt d = p.coefAt d := by
  obtain ⟨e, h1, h2⟩ := LProg.run_out (U := p.toProg.Names) hf hp fun _ h => h
  obtain ⟨c1, c2, c3⟩ := good_iff.mp h2.opd.good
  exact ⟨e, h1, c1, c2, c3, h2.opd.nums, onceL_iff.mp h2.opd.once, h2.coef⟩

/-- C92: programs whose coefficients are computed alike return the same coefficients. -/
theorem lprog_same {p q : LProg} {D E : Set (ℕ →₀ ℕ)} (hp : p.toProg.Fits D) (hq : q.toProg.Fits E) (op : p.OK) (oq : q.OK)
    (h : ∀ d, p.coefAt d = q.coefAt d) : ∃ x y, p.toProg.run = .ok x ∧ q.toProg.run = .ok y ∧
      ∀ d : ℕ →₀ ℕ, (∀ i, d i + max p.derivs q.derivs ≤ 2 ^ 53) → x.coeffAt d = y.coeffAt d := by
  obtain ⟨x, h1, -, -, -, -, -, h2⟩ := lprog_coeffs hp op
  obtain ⟨y, h3, -, -, -, -, -, h4⟩ := lprog_coeffs hq oq
  refine ⟨x, y, h1, h3, fun d hd => ?_⟩
  rw [h2 d fun i => (by have := hd i; omega), h4 d fun i => (by have := hd i; omega), h]

/-! ## Linear constraints -/

section Constraint
variable {l r : LProg} {ws : List (Var F64)}

theorem degLE_one_cases {d : ℕ →₀ ℕ} (h : d ∈ degLE 1) : d = 0 ∨ ∃ i, d = Finsupp.single i 1 := by
  by_cases h0 : d = 0
  · exact .inl h0
  · obtain ⟨i, hi⟩ := Finsupp.ne_iff.mp h0
    refine .inr ⟨i, ?_⟩
    have hle : Finsupp.single i 1 ≤ d := by
      rw [Finsupp.single_le_iff]
      simp only [Finsupp.coe_zero, Pi.zero_apply] at hi
      omega
    obtain ⟨e, rfl⟩ := exists_add_of_le hle
    have : ((Finsupp.single i 1 + e).sum fun _ e => e) ≤ 1 := h
    rw [Finsupp.sum_add_index' (fun _ => rfl) fun _ _ _ => rfl, Finsupp.sum_single_index rfl] at this
    have h1 : (e.sum fun _ e => e) = 0 := by omega
    have h2 : e = 0 := by
      ext j
      by_contra hj
      have hj' : j ∈ e.support := Finsupp.mem_support_iff.mpr hj
      have := Finset.sum_eq_zero_iff.mp h1 j hj'
      exact hj this
    rw [h2, add_zero]

/-- The two sides of a linear constraint, as programs whose coefficients are finite. -/
structure LProgSides (l r : LProg) : Prop where
  lfits : l.toProg.Fits (degLE 1)
  rfits : r.toProg.Fits (degLE 1)
  lok : l.OK
  rok : r.OK
  derivs : l.derivs < 2 ^ 53 ∧ r.derivs < 2 ^ 53
  bounds : ∀ v, l.toProg.Names v ∨ r.toProg.Names v → v.BoundsOK
  finite : ∀ d ∈ degLE 1, (∃ q, l.coefAt d = .fin q) ∧ (∃ q, r.coefAt d = .fin q) ∧
    ∃ q, GoNum.sub (l.coefAt d) (r.coefAt d) = .fin q

theorem LProgSides.sides (h : LProgSides l r) (s : Sense) (hs : s = .eq ∨ s = .le ∨ s = .ge) :
    ∃ a b, l.toProg.run = .ok a ∧ r.toProg.run = .ok b ∧ (Expr.s a).comparison (.s b) s = .ok (.s ⟨a, b, s⟩) ∧
      SCon.LinearFloats ⟨a, b, s⟩ ∧ SCon.FiniteDiff ⟨a, b, s⟩ ∧
      (∀ v, SCon.Mentions ⟨a, b, s⟩ v → l.toProg.Names v ∨ r.toProg.Names v) ∧
      ∀ d ∈ degLE 1, a.coeffAt d = l.coefAt d ∧ b.coeffAt d = r.coefAt d := by
  obtain ⟨a, a1, a2, a3, a4, a5, a6, a7⟩ := lprog_coeffs h.lfits h.lok
  obtain ⟨b, b1, b2, b3, b4, b5, b6, b7⟩ := lprog_coeffs h.rfits h.rok
  have small : ∀ d ∈ degLE 1, ∀ i, d i ≤ 1 := by
    intro d hd i
    rcases degLE_one_cases hd with rfl | ⟨j, rfl⟩
    · simp
    · rw [Finsupp.single_apply]
      split <;> omega
  have hco : ∀ d ∈ degLE 1, a.coeffAt d = l.coefAt d ∧ b.coeffAt d = r.coefAt d := fun d hd =>
    ⟨a7 d fun i => (by have := small d hd i; have := h.derivs; omega),
      b7 d fun i => (by have := small d hd i; have := h.derivs; omega)⟩
  have out : ∀ {e : Scalar F64}, e.Canon → e.TermsIn (degLE 1) → ∀ d ∉ degLE 1, e.coeffAt d = .fin 0 := by
    intro e ce he d hd
    refine fco_none fun m hm hmd => hd ?_
    rw [← hmd]
    exact terms_in (U := fun _ => True) (by simp [degLE]) (good_iff.mpr ⟨ce, he, fun _ _ => trivial⟩) hm
  have fin : ∀ {e : Scalar F64}, e.Canon → e.TermsIn (degLE 1) → (∀ d ∈ degLE 1, ∃ q, e.coeffAt d = .fin q) →
      ∀ d, ∃ q, e.coeffAt d = .fin q := by
    intro e ce he hf d
    by_cases hd : d ∈ degLE 1
    · exact hf d hd
    · exact ⟨0, out ce he d hd⟩
  have fa := fin a2 a3 fun d hd => by rw [(hco d hd).1]; exact (h.finite d hd).1
  have fb := fin b2 b3 fun d hd => by rw [(hco d hd).2]; exact (h.finite d hd).2.1
  refine ⟨a, b, a1, b1, comparison_scalar (good_of_univ a2).check (good_of_univ b2).check s,
    ⟨⟨a2, b2, hs⟩, ⟨a3, b3⟩, floats_of_coeffs a5 a6 fa, floats_of_coeffs b5 b6 fb, a6, b6,
      fun v hv => h.bounds v (hv.imp (a4 v) (b4 v))⟩, ?_, fun v hv => hv.imp (a4 v) (b4 v), hco⟩
  intro d
  by_cases hd : d ∈ degLE 1
  · show ∃ q, GoNum.sub (a.coeffAt d) (b.coeffAt d) = .fin q
    rw [(hco d hd).1, (hco d hd).2]
    exact (h.finite d hd).2.2
  · show ∃ q, GoNum.sub (a.coeffAt d) (b.coeffAt d) = .fin q
    rw [out a2 a3 d hd, out b2 b3 d hd]
    exact ⟨0, by decide +kernel⟩

variable (h : LProgSides l r) (hne : ws ≠ []) (hok : ∀ w ∈ ws, w.OK ∧ w.BoundsOK) (hnd : (ws.map (·.id)).Nodup)
  (hcov : ∀ v, l.toProg.Names v ∨ r.toProg.Names v → v.id ∈ ws.map (·.id))
include h hne hok hnd hcov

/-- C92: the linear representation of an inequality between programs: each number is computed by itself. -/
theorem lprog_inequality {s : Sense} (hs : s = .le ∨ s = .ge) :
    ∃ a b c, l.toProg.run = .ok a ∧ r.toProg.run = .ok b ∧ (Expr.s a).comparison (.s b) s = .ok (.s c) ∧
      c.linearIneq [ws] = .ok (ws.map fun w => s.orient (GoNum.sub (l.coefAt (Finsupp.single w.id 1))
        (r.coefAt (Finsupp.single w.id 1))), s.orient (GoNum.sub (r.coefAt 0) (l.coefAt 0))) := by
  obtain ⟨a, b, h1, h2, h3, h4, h5, h6, h7⟩ := h.sides s (.inr hs)
  refine ⟨a, b, _, h1, h2, h3, ?_⟩
  rw [linearIneq_coeffs h4 hne hok hnd (fun v hv => hcov v (h6 v hv)) h5]
  have h0 := h7 0 (by simp [degLE])
  refine congrArg Except.ok (Prod.ext (List.map_congr_left fun w _ => ?_) ?_)
  · obtain ⟨e1, e2⟩ := h7 (Finsupp.single w.id 1) (single_degLE _ le_rfl)
    simp only [SCon.rowAt, e1, e2]
  · simp only [SCon.boundAt, h0.1, h0.2]

/-- C92: the same for an equality. -/
theorem lprog_equality :
    ∃ a b c, l.toProg.run = .ok a ∧ r.toProg.run = .ok b ∧ (Expr.s a).eqTo (.s b) = .ok (.s c) ∧
      c.linearEq [ws] = .ok (ws.map fun w => GoNum.sub (l.coefAt (Finsupp.single w.id 1))
        (r.coefAt (Finsupp.single w.id 1)), GoNum.sub (r.coefAt 0) (l.coefAt 0)) := by
  obtain ⟨a, b, h1, h2, h3, h4, h5, h6, h7⟩ := h.sides .eq (.inl rfl)
  refine ⟨a, b, _, h1, h2, h3, ?_⟩
  rw [linearEq_coeffs h4 rfl hne hok hnd (fun v hv => hcov v (h6 v hv)) h5]
  have h0 := h7 0 (by simp [degLE])
  refine congrArg Except.ok (Prod.ext (List.map_congr_left fun w _ => ?_) ?_)
  · obtain ⟨e1, e2⟩ := h7 (Finsupp.single w.id 1) (single_degLE _ le_rfl)
    simp only [SCon.rowAt, e1, e2]
  · simp only [SCon.boundAt, h0.1, h0.2]

end Constraint

/-! ## Examples -/

/-- `x * 0.1 + (x - y)`: the coefficient of `x` is the `float64` sum of `0.1` and `1`. -/
def wLSum : LProg := .plus (.scale (.var (f64Var 1)) f64Tenth) (.minus (.var (f64Var 1)) (.var (f64Var 2)))

private theorem tenth_able : F64.Able f64Tenth := by
  obtain ⟨q, h1, h2⟩ : F64.IsFloat (.fin f64Tenth) := ⟨f64Tenth, rfl, by decide +kernel⟩
  cases h1
  exact h2

theorem wLSum_ok : wLSum.OK := ⟨⟨rfl, tenth_able⟩, rfl, rfl⟩

theorem wLSum_fits : wLSum.toProg.Fits (degLE 1) :=
  Prog.Quadratic.fits (p := wLSum.toProg) (by simp [wLSum, LProg.toProg, Prog.Quadratic, Prog.deg])

private theorem single_one_ne {i : ℕ} : (Finsupp.single i 1 : ℕ →₀ ℕ) ≠ 0 := by simp

private theorem isFin_of {x : F64} (h : (match x with | .fin _ => true | _ => false) = true) : ∃ q, x = .fin q := by
  cases x with
  | fin q => exact ⟨q, rfl⟩
  | _ => simp at h

/-- Infinite coefficients too: `(∞ x) - (∞ x)` is `NaN x`, computed for `x` alone. -/
example : ∃ e, (LProg.minus (.shift (.k (.inf false)) (f64Var 1)) (.shift (.k (.inf false)) (f64Var 1))).toProg.run = .ok e ∧
    e.coeffAt (Finsupp.single 1 1) = .nan := by
  obtain ⟨e, h1, -, -, -, -, -, h2⟩ := lprog_coeffs
    (p := .minus (.shift (.k (.inf false)) (f64Var 1)) (.shift (.k (.inf false)) (f64Var 1)))
    (Prog.Quadratic.fits (by simp [LProg.toProg, Prog.Quadratic, Prog.deg])) ⟨⟨trivial, rfl⟩, trivial, rfl⟩
  refine ⟨e, h1, (h2 _ fun i => ?_).trans ?_⟩
  · have : (Finsupp.single 1 1 : ℕ →₀ ℕ) i ≤ 1 := by rw [Finsupp.single_apply]; split <;> omega
    simp only [LProg.derivs]
    omega
  · simp [LProg.coefAt, f64Var]
    rfl

/-- `x * 0.1 + (x - y) ≤ 0.1`, with respect to `x` and `y`. -/
example : ∃ a b c, wLSum.toProg.run = .ok a ∧ (LProg.k (.fin f64Tenth)).toProg.run = .ok b ∧
    (Expr.s a).comparison (.s b) .le = .ok (.s c) ∧
    c.linearIneq [[f64Var 1, f64Var 2]] =
      .ok ([GoNum.add (.fin f64Tenth) (.fin 1), .fin (-1)], .fin f64Tenth) := by
  have h : LProgSides wLSum (.k (.fin f64Tenth)) := {
    lfits := wLSum_fits
    rfits := .k (node_degLE (by decide))
    lok := wLSum_ok
    rok := tenth_able
    derivs := by simp [wLSum, LProg.derivs]
    bounds := by
      rintro v (((rfl | h) | rfl | rfl) | h)
      · exact f64Var_bounds _
      · exact h.elim
      · exact f64Var_bounds _
      · exact f64Var_bounds _
      · exact h.elim
    finite := by
      intro d hd
      rcases degLE_one_cases hd with rfl | ⟨i, rfl⟩
      · simp only [wLSum, LProg.coefAt, f64Var, single_one_ne, single_one_ne.symm, if_true, if_false]
        exact ⟨isFin_of (by decide +kernel), isFin_of (by decide +kernel), isFin_of (by decide +kernel)⟩
      · have e1 : (Finsupp.single i 1 : ℕ →₀ ℕ) = Finsupp.single 1 1 ↔ i = 1 := Finsupp.single_left_inj one_ne_zero
        have e2 : (Finsupp.single i 1 : ℕ →₀ ℕ) = Finsupp.single 2 1 ↔ i = 2 := Finsupp.single_left_inj one_ne_zero
        simp only [wLSum, LProg.coefAt, f64Var, e1, e2, single_one_ne, if_false]
        by_cases h1 : i = 1
        · subst h1
          simp only [if_true]
          exact ⟨isFin_of (by decide +kernel), isFin_of (by decide +kernel), isFin_of (by decide +kernel)⟩
        · by_cases h2 : i = 2
          · subst h2
            exact ⟨isFin_of (by decide +kernel), isFin_of (by decide +kernel), isFin_of (by decide +kernel)⟩
          · simp only [h1, h2, if_false]
            exact ⟨isFin_of (by decide +kernel), isFin_of (by decide +kernel), isFin_of (by decide +kernel)⟩ }
  obtain ⟨a, b, c, h1, h2, h3, h4⟩ := lprog_inequality (ws := [f64Var 1, f64Var 2]) h (by simp)
    (by
      simp only [List.mem_cons, List.not_mem_nil, or_false, forall_eq_or_imp, forall_eq]
      exact ⟨⟨rfl, f64Var_bounds _⟩, rfl, f64Var_bounds _⟩)
    (by simp [f64Var]) (by
      rintro v (((rfl | h) | rfl | rfl) | h)
      · simp
      · exact h.elim
      · simp
      · simp
      · exact h.elim) (.inl rfl)
  refine ⟨a, b, c, h1, h2, h3, h4.trans ?_⟩
  have e1 : (Finsupp.single 1 1 : ℕ →₀ ℕ) ≠ Finsupp.single 2 1 := fun h =>
    absurd ((Finsupp.single_left_inj one_ne_zero).mp h) (by decide)
  simp only [List.map_cons, List.map_nil, wLSum, LProg.coefAt, f64Var, e1, e1.symm, single_one_ne, single_one_ne.symm,
    if_true, if_false, Sense.orient]
  decide +kernel

/-- `wLSum` with its two summands exchanged has the same coefficients. -/
example : ∃ x y, wLSum.toProg.run = .ok x ∧
    (LProg.plus (.minus (.var (f64Var 1)) (.var (f64Var 2))) (.scale (.var (f64Var 1)) f64Tenth)).toProg.run = .ok y ∧
    ∀ d : ℕ →₀ ℕ, (∀ i, d i + 0 ≤ 2 ^ 53) → x.coeffAt d = y.coeffAt d :=
  lprog_same wLSum_fits (Prog.Quadratic.fits (by simp [LProg.toProg, Prog.Quadratic, Prog.deg])) wLSum_ok
    ⟨⟨rfl, rfl⟩, rfl, tenth_able⟩ fun _ => f64Laws.add_comm _ _

/-- The derivative of `(0.1 x) x` by `x`: the coefficient of `x` is `0.1 * 2`. -/
example : ∃ e, (LProg.deriv (.shift (.scaleL f64Tenth (.var (f64Var 1))) (f64Var 1)) (f64Var 1)).toProg.run = .ok e ∧
    e.coeffAt (Finsupp.single 1 1) = GoNum.mul (GoNum.mul (.fin 1) (.fin f64Tenth)) (GoNum.ofInt 2) := by
  obtain ⟨e, h1, -, -, -, -, -, h2⟩ := lprog_coeffs
    (p := .deriv (.shift (.scaleL f64Tenth (.var (f64Var 1))) (f64Var 1)) (f64Var 1))
    (Prog.Quadratic.fits (by simp [LProg.toProg, Prog.Quadratic, Prog.deg])) ⟨⟨⟨rfl, tenth_able⟩, rfl⟩, rfl⟩
  refine ⟨e, h1, (h2 _ fun i => ?_).trans ?_⟩
  · have : (Finsupp.single 1 1 : ℕ →₀ ℕ) i ≤ 1 := by rw [Finsupp.single_apply]; split <;> omega
    simp only [LProg.derivs]
    omega
  · simp [LProg.coefAt, f64Var]

end Verif
