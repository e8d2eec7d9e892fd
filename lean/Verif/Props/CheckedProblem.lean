import Verif.Props.ArrayCheckedCon
import Verif.Props.CheckedLinear
import Verif.Props.VecLinear

/-!
# C80: the problem a solver gets from checked constraints

A caller builds scalar, vector and matrix constraints that pass the check of C78 and hands them to a solver: either as the list of scalar
constraints `CompileConstraintsIntoScalarConstraints` returns, or, for a linear vector constraint, as the matrix and the vector
`LinearInequalityConstraintRepresentation` or `LinearEqualityConstraintRepresentation` returns.
-/

set_option linter.unusedSectionVars false

namespace Verif

open MvPolynomial

variable {R : Type} [Field R] [LinearOrder R] [IsStrictOrderedRing R]

/-! ## Compiled constraints -/

theorem flatten_rows {α : Type} (f : ℕ → ℕ → α) (r c : ℕ) :
    (((List.range r).map fun i => (List.range c).map (f i)).flatten).length = r * c ∧
    ∀ i < r, ∀ j < c, (((List.range r).map fun i => (List.range c).map (f i)).flatten)[i * c + j]? = some (f i j) := by
  induction r with
  | zero => simp
  | succ r ih =>
    obtain ⟨h1, h2⟩ := ih
    rw [List.range_succ, List.map_append, List.flatten_append]
    simp only [List.map_cons, List.map_nil, List.flatten_cons, List.flatten_nil, List.append_nil]
    refine ⟨by rw [List.length_append, h1, List.length_map, List.length_range, Nat.add_mul, Nat.one_mul], ?_⟩
    intro i hi j hj
    rcases Nat.lt_succ_iff_lt_or_eq.mp hi with hi | rfl
    · rw [List.getElem?_append_left, h2 i hi j hj]
      rw [h1]
      calc i * c + j < i * c + c := by omega
        _ = (i + 1) * c := by ring
        _ ≤ r * c := Nat.mul_le_mul_right c hi
    · rw [List.getElem?_append_right (by rw [h1]; omega), h1, Nat.add_sub_cancel_left]
      simp [hj]

/-- A constraint of any size. -/
structure AnyCon (R : Type) where
  r : ℕ
  c : ℕ
  prog : AConProg R r c

/-- The calls pass the check and return `k`. -/
structure AnyCon.Gives (p : AnyCon R) (k : Con R) : Prop where
  checked : p.prog.checked = true
  vars : p.prog.VarsOK
  regular : p.prog.Regular
  run : p.prog.run = .ok k

/-- What the calls ask for. -/
def AnyCon.Holds (p : AnyCon R) (ρ : ℕ → R) : Prop := ∀ i j, p.prog.HoldsAt i j ρ

section
variable {r c : ℕ} {p : AConProg R r c} {k : Con R}

/-- C80: compiling the constraint returns one scalar constraint for each entry, row by row. -/
theorem compile_checked_rows (hv : p.VarsOK) (hreg : p.Regular) (he : p.run = .ok k) :
    ∃ l, k.compile = .ok l ∧ l.length = r * c ∧ ∀ (i : Fin r) (j : Fin c), p.okAt i j = true →
      ∃ s, l[(i : ℕ) * c + j]? = some s ∧ ∀ ρ, s.Sat ρ ↔ p.HoldsAt i j ρ := by
  obtain ⟨hc, h1, h2, -⟩ := arrayConstraint_wellFormed hv hreg he
  refine ⟨_, compile_entries hc, ?_, fun i j hij => ?_⟩
  · rw [Con.entries_eq h1 h2]
    exact (flatten_rows _ r c).1
  · obtain ⟨x, y, e1, e2, h⟩ := arrayConstraint_entry hv hreg he i j hij
    rw [Expr.at_entryD hc.left h1 i.2 j.2, Except.ok.injEq] at e1
    rw [Expr.at_entryD hc.right h2 i.2 j.2, Except.ok.injEq] at e2
    subst e1 e2
    refine ⟨⟨k.left.entryD i j, k.right.entryD i j, k.sense⟩, ?_, h⟩
    rw [Con.entries_eq h1 h2]
    exact (flatten_rows (fun i j => (⟨k.left.entryD i j, k.right.entryD i j, k.sense⟩ : SCon R)) r c).2 i i.2 j j.2

end

/-- C80: compiling a list of checked constraints succeeds, returns one scalar constraint per entry, and a point satisfies
all of them exactly when it satisfies all that the calls ask for. -/
theorem compile_checked {ps : List (AnyCon R)} {ks : List (Con R)} (h : List.Forall₂ AnyCon.Gives ps ks) :
    ∃ l, compileAll ks = .ok l ∧ l.length = (ps.map fun p => p.r * p.c).sum ∧
      ∀ ρ, (∀ s ∈ l, s.Sat ρ) ↔ ∀ p ∈ ps, p.Holds ρ := by
  have hc : ∀ k ∈ ks, k.Canon := by
    induction h with
    | nil => simp
    | cons hp _ ih =>
      simp only [List.mem_cons, forall_eq_or_imp]
      exact ⟨(arrayConstraint_wellFormed hp.vars hp.regular hp.run).1, ih⟩
  obtain ⟨l, h1, h2⟩ := compile_feasible_partial hc
  refine ⟨l, h1, ?_, fun ρ => (h2 ρ).trans ?_⟩
  · rw [(compileAll_length hc h1).1]
    clear h1 h2 hc
    induction h with
    | nil => rfl
    | cons hp _ ih =>
      obtain ⟨-, h1, -, -⟩ := arrayConstraint_wellFormed hp.vars hp.regular hp.run
      simp only [List.map_cons, List.sum_cons, ih]
      rw [h1.grid_eq, (flatten_rows _ _ _).1]
  · clear h1 h2 hc
    induction h with
    | nil => simp
    | cons hp _ ih =>
      simp only [List.mem_cons, forall_eq_or_imp, ih]
      exact and_congr (arrayConstraint_checked hp.checked hp.vars hp.regular hp.run ρ) .rfl

/-! ## Linear vector constraints -/

/-- Both sides of entry `(i, j)` are written with terms of degree at most one. -/
def AConProg.linear {R : Type} {r c : ℕ} (p : AConProg R r c) : Bool :=
  (List.range r).all fun i => (List.range c).all fun j =>
    (Shape.full (p.entries i j).1.ws).linear && (Shape.full (p.entries i j).2.ws).linear

theorem written_linear {W : List Writing} (h : (Shape.full W).linear = true) {e : Scalar R} (hc : e.Canon)
    (hw : e.WrittenIn {w | w ∈ W}) : e.TermsIn (degLE 1) := by
  have key : ∀ m ∈ e.terms, m.vars = [] ∨ m.degs ∈ degLE 1 := by
    intro m hm
    by_cases hv : m.vars = []
    · exact .inl hv
    · right
      have hs := of_decide_eq_true (List.all_eq_true.mp h _ (hw m hm hv))
      have := Mono.exps_sum (Scalar.terms_canon hc m hm)
      rw [mem_degLE]
      change m.exps.sum ≤ 1 at hs
      omega
  cases e with
  | k c => trivial
  | var v => show _ ≤ 1; simp
  | mono m => exact key m (List.mem_singleton.mpr rfl)
  | poly p => exact key

section
variable {r c : ℕ} {p : AConProg R r c} {k : Con R}

/-- C80: a checked constraint whose entries the check finds to be linear is linear, and `IsLinear` says so. -/
theorem arrayConstraint_linear (h : p.checked = true) (hl : p.linear = true) (hv : p.VarsOK) (hreg : p.Regular)
    (he : p.run = .ok k) : k.left.TermsIn (degLE 1) ∧ k.right.TermsIn (degLE 1) ∧ k.isLinear = .ok true := by
  obtain ⟨M, N, hM, hN, -, -⟩ := p.sound hv.ok hv.same (fun _ h => h) hreg he
  have hok : ∀ {i j : ℕ}, i < r → j < c → (p.entries i j).1.ok = true ∧ (p.entries i j).2.ok = true := by
    intro i j hi hj
    have := List.all_eq_true.mp (List.all_eq_true.mp h i (List.mem_range.mpr hi)) j (List.mem_range.mpr hj)
    exact Bool.and_eq_true _ _ ▸ this
  have hlin : ∀ {i j : ℕ}, i < r → j < c →
      (Shape.full (p.entries i j).1.ws).linear = true ∧ (Shape.full (p.entries i j).2.ws).linear = true := by
    intro i j hi hj
    have := List.all_eq_true.mp (List.all_eq_true.mp hl i (List.mem_range.mpr hi)) j (List.mem_range.mpr hj)
    exact Bool.and_eq_true _ _ ▸ this
  have t1 : k.left.TermsIn (degLE 1) := fun row hrow x hx => by
    obtain ⟨i, j, hi, hj, hg⟩ := Arr.mem hM hrow hx
    obtain ⟨-, h2⟩ := hg.2 (hok hi hj).1
    exact written_linear (hlin hi hj).1 h2.canon h2.written
  have t2 : k.right.TermsIn (degLE 1) := fun row hrow x hx => by
    obtain ⟨i, j, hi, hj, hg⟩ := Arr.mem hN hrow hx
    obtain ⟨-, h2⟩ := hg.2 (hok hi hj).2
    exact written_linear (hlin hi hj).2 h2.canon h2.written
  refine ⟨t1, t2, ?_⟩
  obtain ⟨b, h1, h2⟩ := isLinear_array (arrayConstraint_wellFormed hv hreg he).1
  rw [h1, h2.mpr ⟨t1, t2⟩]

end

/-- `AsSimplifiedConstraint` of a well-formed vector constraint of at least two rows writes no low term twice. -/
theorem vec_simplify_low {n : ℕ} {c c' : VCon R} (hn : 2 ≤ n) (hc : (Con.v c).Canon)
    (s1 : (Expr.v c.lhs).Shape n 1) (s2 : (Expr.v c.rhs).Shape n 1) (h : c.simplify = .ok c') : c'.LowDistinct := by
  have st : Stable (fun x : Scalar R => Good (fun _ => True) Set.univ x ∧ x.LowDistinct) := {
    check := fun _ h => h.1.check
    poly := fun _ h => ⟨good_toPoly h.1, toPoly_low h.2⟩
    mono := fun _ _ h hm => ⟨good_toMono h.1 hm, trivial⟩
    simp := fun a h => by
      obtain ⟨b, h1, h2⟩ := Scalar.asSimplified_good h.1
      exact ⟨b, h1, h2, (Scalar.asSimplified_simple (good_iff.mp h.1).1 h1).1⟩ }
  have sub : ∀ {a b : Vec R} {e : Expr R}, VArr n (fun _ => Good (fun _ => True) Set.univ) a →
      VArr n (fun _ => Good (fun _ => True) Set.univ) b → (Expr.v a).minus (.v b) = .ok e →
      ∃ d, e = .v d ∧ VArr n (fun _ x => Good (fun _ => True) Set.univ x ∧ x.LowDistinct) d := by
    intro a b e ha hb h
    obtain ⟨e', h1, h2, -, h3⟩ := Vec.minus_vec_ok (Q := fun _ x => Good (fun _ => True) Set.univ x ∧ x.LowDistinct)
      (T := fun _ => Good (fun _ => True) Set.univ) (by omega) ha
      (fun _ _ h => h.check) hb (fun _ _ h => h.check) (fun _ _ => stable_good) (fun _ _ => st)
      (fun _ _ _ hx => Scalar.mul_good (prodIn_univ) hx trivial)
      (fun _ x y _ hx hy => by
        obtain ⟨b, h1, h2⟩ := Scalar.plus_good hx hy
        exact ⟨b, h1, h2, (Scalar.plus_simple (good_iff.mp hx).1 (good_iff.mp hy).1 h1).1⟩)
    obtain ⟨d, rfl⟩ := h3 (by omega)
    rw [h1, Except.ok.injEq] at h
    exact ⟨d, h.symm, earr_v_iff.mp h2⟩
  have al : VArr n (fun _ => Good (fun _ => True) Set.univ) c.lhs :=
    earr_v_iff.mp (egood_of s1 hc.left fun _ _ => trivial)
  have ar : VArr n (fun _ => Good (fun _ => True) Set.univ) c.rhs :=
    earr_v_iff.mp (egood_of s2 hc.right fun _ _ => trivial)
  have ak : ∀ {l : List R}, (Expr.v (.k l)).Shape n 1 → VArr n (fun _ => Good (fun _ => True) Set.univ) (.k l) :=
    fun hs => earr_v_iff.mp (egood_of hs (fun row hrow x hx => by
      obtain ⟨y, hy, rfl⟩ := List.mem_map.mp hrow
      obtain ⟨z, -, rfl⟩ := List.mem_map.mp hy
      rw [List.mem_singleton.mp hx]
      trivial) fun _ _ => trivial)
  unfold VCon.simplify at h
  obtain ⟨-, -, h⟩ := Go.bind_eq_ok.mp h
  obtain ⟨kl, h1, h⟩ := Go.bind_eq_ok.mp h
  obtain ⟨l, h2, h⟩ := Go.bind_eq_ok.mp h
  obtain ⟨kr, h3, h⟩ := Go.bind_eq_ok.mp h
  obtain ⟨r, h4, h⟩ := Go.bind_eq_ok.mp h
  obtain ⟨nl, h5, h⟩ := Go.bind_eq_ok.mp h
  obtain ⟨kr', h6, h⟩ := Go.bind_eq_ok.mp h
  obtain ⟨kl', h7, h⟩ := Go.bind_eq_ok.mp h
  obtain ⟨nr, h8, h⟩ := Go.bind_eq_ok.mp h
  have bl := ak (vec_constant_shape hc.left s1 h1)
  have br := ak (vec_constant_shape hc.right s2 h3)
  obtain ⟨l, rfl, hl⟩ := sub al bl h2
  obtain ⟨r, rfl, hr⟩ := sub ar br h4
  obtain ⟨nl, rfl, hnl⟩ := sub (hl.mono fun _ _ _ h => h.1) (hr.mono fun _ _ _ h => h.1) h5
  obtain ⟨nr, rfl, hnr⟩ := sub (ak (vec_constant_shape hc.right s2 h6)) (ak (vec_constant_shape hc.left s1 h7)) h8
  obtain rfl : c' = ⟨nl, nr, c.sense⟩ := by cases h; rfl
  exact ⟨fun x hx => by obtain ⟨i, -, hg⟩ := LArr.mem hnl hx; exact hg.2,
    fun x hx => by obtain ⟨i, -, hg⟩ := LArr.mem hnr hx; exact hg.2⟩

variable {n : ℕ} {p : AConProg R n 1} {k : VCon R}

/-- No row holds everywhere or nowhere. -/
def AConProg.Proper (p : AConProg R n 1) : Prop := ∀ i, (∃ ρ, p.HoldsAt i 0 ρ) ∧ ∃ ρ, ¬ p.HoldsAt i 0 ρ

theorem arrayConstraint_plain (hn : 2 ≤ n) (h : p.checked = true) (hv : p.VarsOK) (hreg : p.Regular)
    (he : p.run = .ok (.v k)) (hl : (Con.v k).isLinear = .ok true) (hd : k.LowDistinct) (hp : p.Proper) : k.Plain n := by
  obtain ⟨hc, h1, h2, -⟩ := arrayConstraint_wellFormed hv hreg he
  obtain ⟨b, e1, e2⟩ := isLinear_array hc
  rw [hl, Except.ok.injEq] at e1
  obtain ⟨t1, t2⟩ := e2.mp e1.symm
  refine ⟨hn, hc, h1, h2, hd, t1, t2, fun i hi x y hx hy t ht => ?_⟩
  have hok : p.okAt i (0 : ℕ) = true :=
    List.all_eq_true.mp (List.all_eq_true.mp h i (List.mem_range.mpr hi)) 0 (by simp)
  obtain ⟨x', y', f1, f2, f3⟩ := arrayConstraint_entry hv hreg he ⟨i, hi⟩ 0 hok
  have ex : x' = x := by
    rw [Expr.at_entryD hc.left h1 hi (by decide), Except.ok.injEq] at f1
    have : (Expr.v k.lhs).entry i 0 = _ := h1.entryD_some hi (j := 0) (by decide)
    rw [show (Con.v k).left = .v k.lhs from rfl] at f1
    rw [hx, Option.some.injEq] at this
    rw [← f1, this]; rfl
  have ey : y' = y := by
    rw [Expr.at_entryD hc.right h2 hi (by decide), Except.ok.injEq] at f2
    have : (Expr.v k.rhs).entry i 0 = _ := h2.entryD_some hi (j := 0) (by decide)
    rw [show (Con.v k).right = .v k.rhs from rfl] at f2
    rw [hy, Option.some.injEq] at this
    rw [← f2, this]; rfl
  subst ex ey
  obtain ⟨⟨ρ, hρ⟩, ρ', hρ'⟩ := hp ⟨i, hi⟩
  rw [← f3] at hρ hρ'
  refine hρ' ?_
  have hval : ∀ ρ, x'.value ρ - y'.value ρ = t := fun ρ => by
    have := congrArg (eval ρ) ht
    simpa [Scalar.value] using this
  have h0 := Sense.holds_shift (Con.v k).sense (x'.value ρ) (y'.value ρ) 0
  have h0' := Sense.holds_shift (Con.v k).sense (x'.value ρ') (y'.value ρ') 0
  rw [hval] at h0 h0'
  exact h0'.mp (h0.mpr hρ)

/-- C80: the columns cover the constraint. -/
structure Columns (p : AConProg R n 1) (ws : List (Var R)) : Prop where
  ne : ws ≠ []
  ok : ∀ w ∈ ws, w.OK
  nodup : (ws.map (·.id)).Nodup
  covers : ∀ v, p.Names v → v.id ∈ ws.map (·.id)

/-- C80: the matrix and vector `LinearInequalityConstraintRepresentation` returns for a checked linear `<=` or `>=` vector
constraint have as solutions exactly the points the calls ask for. -/
theorem arrayConstraint_inequality (hn : 2 ≤ n) (h : p.checked = true) (hv : p.VarsOK) (hreg : p.Regular)
    (he : p.run = .ok (.v k)) (hl : (Con.v k).isLinear = .ok true) (hd : k.LowDistinct) (hp : p.Proper)
    {ws : List (Var R)} (hw : Columns p ws) (hs : k.sense = .le ∨ k.sense = .ge) :
    ∃ A b, k.linearIneq [ws] = .ok (A, b) ∧ A.length = n ∧ (∀ row ∈ A, row.length = ws.length) ∧
      ∀ ρ, RowsLE A ws b ρ ↔ ∀ i, p.HoldsAt i 0 ρ := by
  obtain ⟨A, b, h1, h2, h3, h4⟩ := vec_linearIneq_partial (ws := ws)
    ⟨arrayConstraint_plain hn h hv hreg he hl hd hp, hw.ne, hw.ok, hw.nodup,
      fun v hm => hw.covers v ((arrayConstraint_wellFormed hv hreg he).2.2.2 v hm)⟩ hs
  refine ⟨A, b, h1, h2, h3, fun ρ => (h4 ρ).symm.trans ((arrayConstraint_checked h hv hreg he ρ).trans ?_)⟩
  simp only [Fin.forall_fin_one]

/-- C80: the same for `LinearEqualityConstraintRepresentation` and `=`. -/
theorem arrayConstraint_equality (hn : 2 ≤ n) (h : p.checked = true) (hv : p.VarsOK) (hreg : p.Regular)
    (he : p.run = .ok (.v k)) (hl : (Con.v k).isLinear = .ok true) (hd : k.LowDistinct) (hp : p.Proper)
    {ws : List (Var R)} (hw : Columns p ws) (hs : k.sense = .eq) :
    ∃ A b, k.linearEq [ws] = .ok (A, b) ∧ A.length = n ∧ (∀ row ∈ A, row.length = ws.length) ∧
      ∀ ρ, RowsEQ A ws b ρ ↔ ∀ i, p.HoldsAt i 0 ρ := by
  obtain ⟨A, b, h1, h2, h3, h4⟩ := vec_linearEq_partial (ws := ws)
    ⟨arrayConstraint_plain hn h hv hreg he hl hd hp, hw.ne, hw.ok, hw.nodup,
      fun v hm => hw.covers v ((arrayConstraint_wellFormed hv hreg he).2.2.2 v hm)⟩ hs
  refine ⟨A, b, h1, h2, h3, fun ρ => (h4 ρ).symm.trans ((arrayConstraint_checked h hv hreg he ρ).trans ?_)⟩
  simp only [Fin.forall_fin_one]

/-- C80: without a list the columns are variables the calls name. -/
theorem arrayConstraint_inequality_default (hn : 2 ≤ n) (h : p.checked = true) (hv : p.VarsOK) (hreg : p.Regular)
    (he : p.run = .ok (.v k)) (hl : (Con.v k).isLinear = .ok true) (hd : k.LowDistinct) (hp : p.Proper)
    (hs : k.sense = .le ∨ k.sense = .ge) :
    ∃ vs A b, k.linearIneq [] = .ok (A, b) ∧ (vs.map (·.id)).Nodup ∧ (∀ v ∈ vs, p.Names v) ∧ A.length = n ∧
      (∀ row ∈ A, row.length = vs.length) ∧ ∀ ρ, RowsLE A vs b ρ ↔ ∀ i, p.HoldsAt i 0 ρ := by
  obtain ⟨d, vs, A, b, -, -, h1, h2, h3, h4, h5, h6⟩ :=
    vec_linearIneq_default_partial (arrayConstraint_plain hn h hv hreg he hl hd hp) hs
  refine ⟨vs, A, b, h3, h1, fun v hv' => (arrayConstraint_wellFormed hv hreg he).2.2.2 v (h2 v hv'), h4, h5,
    fun ρ => (h6 ρ).symm.trans ((arrayConstraint_checked h hv hreg he ρ).trans ?_)⟩
  simp only [Fin.forall_fin_one]

theorem arrayConstraint_equality_default (hn : 2 ≤ n) (h : p.checked = true) (hv : p.VarsOK) (hreg : p.Regular)
    (he : p.run = .ok (.v k)) (hl : (Con.v k).isLinear = .ok true) (hd : k.LowDistinct) (hp : p.Proper)
    (hs : k.sense = .eq) :
    ∃ vs A b, k.linearEq [] = .ok (A, b) ∧ (vs.map (·.id)).Nodup ∧ (∀ v ∈ vs, p.Names v) ∧ A.length = n ∧
      (∀ row ∈ A, row.length = vs.length) ∧ ∀ ρ, RowsEQ A vs b ρ ↔ ∀ i, p.HoldsAt i 0 ρ := by
  obtain ⟨d, vs, A, b, -, -, h1, h2, h3, h4, h5, h6⟩ :=
    vec_linearEq_default_partial (arrayConstraint_plain hn h hv hreg he hl hd hp) hs
  refine ⟨vs, A, b, h3, h1, fun v hv' => (arrayConstraint_wellFormed hv hreg he).2.2.2 v (h2 v hv'), h4, h5,
    fun ρ => (h6 ρ).symm.trans ((arrayConstraint_checked h hv hreg he ρ).trans ?_)⟩
  simp only [Fin.forall_fin_one]

/-- C80: a constraint that has just been simplified writes no low term twice, so that the theorems above apply to it. -/
theorem arrayConstraint_low (hn : 2 ≤ n) (hv : p.VarsOK) (hreg : p.Regular) (he : p.simplify.run = .ok (.v k)) :
    k.LowDistinct := by
  obtain ⟨k0, h1, h2⟩ := Go.bind_eq_ok.mp (he : (do (← p.run).simplify : Go (Con R)) = _)
  obtain ⟨hc, s1, s2, -⟩ := arrayConstraint_wellFormed hv hreg h1
  cases k0 with
  | s c | m c =>
    obtain ⟨_, -, h⟩ := Go.bind_eq_ok.mp h2
    cases h
  | v c =>
    obtain ⟨c', h3, h⟩ := Go.bind_eq_ok.mp h2
    cases h
    exact vec_simplify_low hn hc s1 s2 h3

/-! ## Counterexample -/

/-- `(2 + 2, 2 + 2)`: the third derivative of two entries `x^2 y + y x x`, which the library keeps as two terms. -/
def wThriceVec : AProg ℚ 2 1 :=
  .deriv (.deriv (.deriv (.plus (.mulS (.vvec ![wy, wy]) (.scalar (.pow (.var wx) 2)))
    (.mulS (.vvec ![wx, wx]) (.scalar (.mul (.var wy) (.var wx))))) wx) wx) wy

/-- `(x, y) <= (2 + 2, 2 + 2)` -/
def wThriceCon : AConProg ℚ 2 1 := .compare (.vvec ![wx, wy]) wThriceVec .le

private theorem pair_mem {a b v : Var ℚ} : (∃ i : Fin (1 + 1), v = ![a, b] i) ↔ v = a ∨ v = b := Fin.exists_fin_two

private theorem wThriceCon_names {v : Var ℚ} (h : wThriceCon.Names v) : v = wx ∨ v = wy := by
  simp only [wThriceCon, wThriceVec, AConProg.Names, AProg.Names, Prog.Names, pair_mem] at h
  tauto

private theorem wThriceCon_regular : wThriceCon.Regular := by
  have key : ∀ {a : AProg ℚ 2 1}, (∃ l, a.run = .ok (.v (.p l))) → ∀ l, a.run ≠ .ok (.v (.m l)) := by
    rintro a ⟨l, h⟩ l' h'
    rw [h] at h'
    cases h'
  refine ⟨trivial, ⟨⟨⟨⟨⟨trivial, trivial⟩, trivial, trivial, trivial⟩, key ?_⟩, key ?_⟩, key ?_⟩, .inr (.inl rfl)⟩
  · exact ⟨[⟨[⟨1, [2, 1], [wx, wy]⟩, ⟨1, [1, 2], [wy, wx]⟩]⟩, ⟨[⟨1, [2, 1], [wx, wy]⟩, ⟨1, [1, 2], [wy, wx]⟩]⟩],
      by decide +kernel⟩
  · exact ⟨[⟨[⟨2, [1, 1], [wx, wy]⟩, ⟨2, [1, 1], [wy, wx]⟩]⟩, ⟨[⟨2, [1, 1], [wx, wy]⟩, ⟨2, [1, 1], [wy, wx]⟩]⟩],
      by decide +kernel⟩
  · exact ⟨[⟨[wm1 2 1 1, wm1 2 1 1]⟩, ⟨[wm1 2 1 1, wm1 2 1 1]⟩], by decide +kernel⟩

private theorem wThriceCon_varsOK : wThriceCon.VarsOK where
  ok v hv := by rcases wThriceCon_names hv with rfl | rfl <;> exact wv_ok _
  same v w hv hw := by
    rcases wThriceCon_names hv with rfl | rfl <;> rcases wThriceCon_names hw with rfl | rfl <;> decide +kernel

private theorem wThriceCon_holds (i : Fin 2) (ρ : ℕ → ℚ) : wThriceCon.HoldsAt i 0 ρ ↔ ρ i ≤ 4 := by
  have h2 : ∀ i, pderiv i (2 : MvPolynomial ℕ ℚ) = 0 := fun i => by
    rw [show (2 : MvPolynomial ℕ ℚ) = C 2 from (map_ofNat C 2).symm]
    exact pderiv_C
  fin_cases i <;>
    (simp [wThriceCon, wThriceVec, AConProg.HoldsAt, AProg.meaning, Prog.meaning, Sense.Holds, wv, Matrix.map, h2]; norm_num)

/-- C80: after three derivatives in a row the representation of a checked vector constraint can be wrong:
`(x, y) <= (2 + 2, 2 + 2)` is returned as `(x, y) <= (2, 2)`. -/
theorem arrayConstraint_inequality_false :
    ¬ ∀ (p : AConProg ℚ 2 1) (ws : List (Var ℚ)), p.checked = true → p.VarsOK → p.Regular → p.Proper → Columns p ws →
      ∀ k A b, p.run = .ok (.v k) → k.sense = .le → k.linearIneq [ws] = .ok (A, b) →
        ∀ ρ, RowsLE A ws b ρ ↔ ∀ i, p.HoldsAt i 0 ρ := by
  intro h
  have := h wThriceCon [wx, wy] (by decide +kernel) wThriceCon_varsOK wThriceCon_regular
    (fun i => ⟨⟨fun _ => 0, (wThriceCon_holds i _).mpr (by norm_num)⟩,
      fun _ => 5, fun h => absurd ((wThriceCon_holds i _).mp h) (by norm_num)⟩)
    ⟨by simp, by simp [wv_ok], by decide +kernel, fun v hv => by rcases wThriceCon_names hv with rfl | rfl <;> decide +kernel⟩
    ⟨.v [wx, wy], .p [⟨[wm0 2, wm0 2]⟩, ⟨[wm0 2, wm0 2]⟩], .le⟩ [[1, 0], [0, 1]] [2, 2] (by decide +kernel) rfl
    (by decide +kernel) (fun _ => 3)
  rw [show (∀ i, wThriceCon.HoldsAt i 0 fun _ => 3) ↔ True from
    iff_true_intro fun i => (wThriceCon_holds i _).mpr (by norm_num)] at this
  have h1 := this.mpr trivial
  unfold RowsLE at h1
  norm_num [List.forall₂_cons] at h1

/-! ## Examples -/

/-- `(x + 1, y) + (y, x) <= (3 + 2 y, 2 y)` -/
private def wLinVec0 : AConProg ℚ 2 1 :=
  (.compare (.plus (.plus (.vvec ![wx, wy]) (.kvec ![1, 0])) (.vvec ![wy, wx]))
    (.plus (.kvec ![3, 0]) (.mulS (.vvec ![wy, wy]) (.scalar (.k 2)))) .le)

/-- The same, simplified. -/
private def wLinVec : AConProg ℚ 2 1 := .simplify wLinVec0

private theorem wLinVec_names {v : Var ℚ} (h : wLinVec.Names v) : v = wx ∨ v = wy := by
  simp only [wLinVec, wLinVec0, AConProg.Names, AProg.Names, Prog.Names, pair_mem] at h
  tauto

private theorem wLinVec_varsOK : wLinVec.VarsOK where
  ok v hv := by rcases wLinVec_names hv with rfl | rfl <;> exact wv_ok _
  same v w hv hw := by
    rcases wLinVec_names hv with rfl | rfl <;> rcases wLinVec_names hw with rfl | rfl <;> decide +kernel

private theorem wLinVec_holds (i : Fin 2) (ρ : ℕ → ℚ) : wLinVec.HoldsAt i 0 ρ ↔
    ![ρ 0 + 1 + ρ 1 ≤ 3 + ρ 1 * 2, ρ 1 + ρ 0 ≤ ρ 1 * 2] i := by
  fin_cases i <;>
    simp [wLinVec, wLinVec0, AConProg.HoldsAt, AProg.meaning, Prog.meaning, Sense.Holds, wv]

/-- All hypotheses of `arrayConstraint_inequality` are met, and the matrix and the vector describe the two inequalities. -/
example : ∃ k A b, wLinVec.run = .ok (.v k) ∧ k.linearIneq [[wx, wy]] = .ok (A, b) ∧
    ∀ ρ, RowsLE A [wx, wy] b ρ ↔ ρ 0 + 1 + ρ 1 ≤ 3 + ρ 1 * 2 ∧ ρ 1 + ρ 0 ≤ ρ 1 * 2 := by
  have hreg : wLinVec.Regular := by
    simp [wLinVec, wLinVec0, AConProg.Regular, AProg.Regular, Prog.Keys, Sense.OK]
  obtain ⟨k, hk, hl, hs⟩ : ∃ k, wLinVec.run = .ok (.v k) ∧ (Con.v k).isLinear = .ok true ∧ k.sense = .le := by
    refine ⟨⟨.p [⟨[wm1 1 0 1, wm1 (-1) 1 1]⟩, ⟨[wm1 (-1) 1 1, wm1 1 0 1]⟩], .k [2, 0], .le⟩, ?_, ?_, rfl⟩ <;> decide +kernel
  obtain ⟨A, b, h1, -, -, h2⟩ := arrayConstraint_inequality (le_refl 2) (by decide +kernel) wLinVec_varsOK hreg hk hl
    (arrayConstraint_low (p := wLinVec0) (le_refl 2) ⟨wLinVec_varsOK.ok, wLinVec_varsOK.same⟩ hreg hk)
    (fun i => ⟨⟨fun _ => 0, (wLinVec_holds i _).mpr (by fin_cases i <;> norm_num)⟩, fun j => if j = 0 then 5 else 0,
      fun h => absurd ((wLinVec_holds i _).mp h) (by fin_cases i <;> norm_num)⟩)
    (ws := [wx, wy]) ⟨by simp, by simp [wv_ok], by decide +kernel, fun v hv => by
      rcases wLinVec_names hv with rfl | rfl <;> decide +kernel⟩ (.inl hs)
  refine ⟨k, A, b, hk, h1, fun ρ => (h2 ρ).trans ?_⟩
  rw [Fin.forall_fin_two, wLinVec_holds, wLinVec_holds]
  rfl

/-- The cubic `x y x = 8`. -/
private def wCubicCon : AConProg ℚ 1 1 :=
  .compareK (.scalar (.mul (.mul (.var wx) (.var wy)) (.var wx))) 8 .eq

/-- A problem of a vector constraint and a cubic scalar constraint: three scalar constraints, with the expected solutions. -/
example : ∃ k k' l, wLinVec.run = .ok k ∧ wCubicCon.run = .ok k' ∧ compileAll [k, k'] = .ok l ∧ l.length = 3 ∧
    ∀ ρ, (∀ s ∈ l, s.Sat ρ) ↔ (ρ 0 + 1 + ρ 1 ≤ 3 + ρ 1 * 2 ∧ ρ 1 + ρ 0 ≤ ρ 1 * 2) ∧ ρ 0 * ρ 1 * ρ 0 = 8 := by
  have ret : ∀ {x : Go (Con ℚ)}, x.isOk = true → ∃ k, x = .ok k := by
    intro x h
    cases x with
    | ok k => exact ⟨k, rfl⟩
    | error _ => cases h
  obtain ⟨k, hk⟩ := ret (x := wLinVec.run) (by decide +kernel)
  obtain ⟨k', hk'⟩ := ret (x := wCubicCon.run) (by decide +kernel)
  have hn : ∀ v, wCubicCon.Names v → v = wx ∨ v = wy := by
    intro v hv
    simp only [wCubicCon, AConProg.Names, AProg.Names, Prog.Names] at hv
    tauto
  have g1 : AnyCon.Gives ⟨2, 1, wLinVec⟩ k := ⟨by decide +kernel, wLinVec_varsOK, by
    simp [wLinVec, wLinVec0, AConProg.Regular, AProg.Regular, Prog.Keys, Sense.OK], hk⟩
  have g2 : AnyCon.Gives ⟨1, 1, wCubicCon⟩ k' := ⟨by decide +kernel, ⟨fun v hv => by
      rcases hn v hv with rfl | rfl <;> exact wv_ok _, fun v w hv hw => by
      rcases hn v hv with rfl | rfl <;> rcases hn w hw with rfl | rfl <;> decide +kernel⟩, by
    simp [wCubicCon, AConProg.Regular, AProg.Regular, Prog.Keys, Sense.OK], hk'⟩
  obtain ⟨l, h1, h2, h3⟩ := compile_checked (.cons g1 (.cons g2 .nil))
  refine ⟨k, k', l, hk, hk', h1, h2, fun ρ => (h3 ρ).trans ?_⟩
  simp only [List.mem_cons, List.not_mem_nil, or_false, forall_eq_or_imp, forall_eq, AnyCon.Holds, Fin.forall_fin_one,
    Fin.forall_fin_two, wLinVec_holds]
  refine and_congr .rfl ?_
  simp [wCubicCon, AConProg.HoldsAt, AProg.meaning, Prog.meaning, Sense.Holds, wv]

end Verif
