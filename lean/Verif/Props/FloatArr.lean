import Verif.Lemmas.FloatSimCon
import Verif.Props.Float
import Verif.Props.BinaryArr
import Verif.Props.Compile

/-!
# C59: `float64` vectors, matrices and constraints

C58 for vectors, matrices and constraints: if the coefficients of every entry are multiples of `2^-u` and
their absolute values add up to few enough units, then the run on `float64` is the exact run, panics
included.  `ImpliesThisIsAlsoSatisfied` divides by a coefficient; it is exact when that coefficient is a
power of two, and otherwise unsound (`implies_float64_false`).
-/

set_option linter.unusedSectionVars false

namespace Verif

/-! ## Specification -/

/-- The same polynomial with exact coefficients. -/
def Poly.exact (p : Poly F64) : Poly ℚ := ⟨p.monos.map Mono.exact⟩

/-- The same vector with exact coefficients. -/
def Vec.exact : Vec F64 → Vec ℚ
  | .k l => .k (l.map F64.val)
  | .v l => .v (l.map Var.exact)
  | .m l => .m (l.map Mono.exact)
  | .p l => .p (l.map Poly.exact)

/-- The same matrix with exact coefficients. -/
def Mat.exact : Mat F64 → Mat ℚ
  | .k l => .k (l.map (·.map F64.val))
  | .v l => .v (l.map (·.map Var.exact))
  | .m l => .m (l.map (·.map Mono.exact))
  | .p l => .p (l.map (·.map Poly.exact))

/-- The same expression with exact coefficients. -/
def Expr.exact : Expr F64 → Expr ℚ
  | .s a => .s a.exact
  | .v a => .v a.exact
  | .m a => .m a.exact

/-- The same scalar constraint with exact coefficients. -/
def SCon.exact (c : SCon F64) : SCon ℚ := ⟨c.lhs.exact, c.rhs.exact, c.sense⟩

/-- The same constraint with exact coefficients. -/
def Con.exact : Con F64 → Con ℚ
  | .s c => .s c.exact
  | .v c => .v ⟨c.lhs.exact, c.rhs.exact, c.sense⟩
  | .m c => .m ⟨c.lhs.exact, c.rhs.exact, c.sense⟩

/-- Every entry is finite, with coefficients that are multiples of `2^-u` and have absolute values that
add up to at most `B`. -/
def Expr.Within (u : ℕ) (B : ℚ) (e : Expr F64) : Prop := ∀ row ∈ e.grid, ∀ s ∈ row, s.Within u B

/-- Both sides of a constraint are. -/
def Con.Within (u : ℕ) (A B : ℚ) (c : Con F64) : Prop := c.left.Within u A ∧ c.right.Within u B

/-- The run `x` is the run `y` read through `f`: both panic alike, or `y` returns `f r` where `x` returns
`r`, and `r` satisfies `P`. -/
def Exactly {α β : Type} (f : α → β) (P : α → Prop) (x : Go α) (y : Go β) : Prop :=
  x.map f = y ∧ ∀ r, x = .ok r → P r

/-- A number `2^k` or `-2^k` with `-w ≤ k ≤ w`. -/
def PowTwo (w : ℕ) (q : ℚ) : Prop := ∃ k : ℤ, |k| ≤ w ∧ |q| = 2 ^ k

/-! ## The relations of the simulation -/

theorem exactly_iff {α β : Type} {A : α → β → Prop} {f : α → β} {P : α → Prop}
    (h : ∀ a b, A a b ↔ P a ∧ b = f a) {x : Go α} {y : Go β} :
    Go.Rel A x y ↔ Exactly f P x y := by
  unfold Exactly
  match x, y with
  | .ok a, .ok b =>
    show A a b ↔ _
    rw [h]
    constructor
    · rintro ⟨h, rfl⟩
      exact ⟨rfl, fun r hr => by cases hr; exact h⟩
    · rintro ⟨h1, h2⟩
      exact ⟨h2 a rfl, (Except.ok.inj h1).symm⟩
  | .error e, .error f =>
    constructor
    · intro h; cases (show e = f from h); exact ⟨rfl, fun r hr => by cases hr⟩
    · rintro ⟨h, -⟩; exact Except.error.inj h
  | .ok a, .error f => exact ⟨False.elim, fun h => by cases h.1⟩
  | .error e, .ok b => exact ⟨False.elim, fun h => by cases h.1⟩

theorem rel_eq {α : Type} {x y : Go α} (h : Go.Rel (· = ·) x y) : x = y := by
  match x, y, h with
  | .ok a, .ok b, h => cases (show a = b from h); rfl
  | .error e, .error f, h => cases (show e = f from h); rfl

theorem rel_true {x y : Go Unit} (h : Go.Rel (fun _ _ => True) x y) : x = y := by
  match x, y, h with
  | .ok a, .ok b, h => rfl
  | .error e, .error f, h => cases (show e = f from h); rfl

variable {u w : ℕ} {A B S : ℚ}

theorem krel_iff (x : F64) (q : ℚ) : SRel F64.model (dyadics u) B (.k x) (.k q) ↔
    (Scalar.k x).Within u B ∧ q = x.val := by
  rw [srel_iff]; exact and_congr_right fun _ => by simp [Scalar.exact]

theorem varrel_iff (x : Var F64) (q : Var ℚ) : SRel F64.model (dyadics u) B (.var x) (.var q) ↔
    (Scalar.var x).Within u B ∧ q = x.exact := by
  rw [srel_iff]; exact and_congr_right fun _ => by simp [Scalar.exact]

theorem monorel_iff (x : Mono F64) (q : Mono ℚ) : SRel F64.model (dyadics u) B (.mono x) (.mono q) ↔
    (Scalar.mono x).Within u B ∧ q = x.exact := by
  rw [srel_iff]; exact and_congr_right fun _ => by simp [Scalar.exact]

theorem polyrel_iff (x : Poly F64) (q : Poly ℚ) : SRel F64.model (dyadics u) B (.poly x) (.poly q) ↔
    (Scalar.poly x).Within u B ∧ q = x.exact := by
  rw [srel_iff]; exact and_congr_right fun _ => by simp [Scalar.exact, Poly.exact]

theorem forall₂_map_iff₂ {α β : Type} {A : α → β → Prop} {f : α → β} {P : α → Prop}
    (h : ∀ a b, A a b ↔ P a ∧ b = f a) {l : List (List α)} {l' : List (List β)} :
    List.Forall₂ (List.Forall₂ A) l l' ↔ (∀ r ∈ l, ∀ a ∈ r, P a) ∧ l' = l.map (·.map f) :=
  forall₂_map_iff (P := fun r => ∀ a ∈ r, P a) (fun _ _ => forall₂_map_iff h)

theorem vecrel_iff (a : Vec F64) (b : Vec ℚ) : VecRel F64.model (dyadics u) B a b ↔
    (∀ s ∈ a.entries, s.Within u B) ∧ b = a.exact := by
  match a, b with
  | .k l, .k l' =>
    refine (forall₂_map_iff krel_iff).trans ?_
    simp [Vec.entries, Vec.exact]
  | .v l, .v l' =>
    refine (forall₂_map_iff varrel_iff).trans ?_
    simp [Vec.entries, Vec.exact]
  | .m l, .m l' =>
    refine (forall₂_map_iff monorel_iff).trans ?_
    simp [Vec.entries, Vec.exact]
  | .p l, .p l' =>
    refine (forall₂_map_iff polyrel_iff).trans ?_
    simp [Vec.entries, Vec.exact]
  | .k _, .v _ | .k _, .m _ | .k _, .p _ | .v _, .k _ | .v _, .m _ | .v _, .p _
  | .m _, .k _ | .m _, .v _ | .m _, .p _ | .p _, .k _ | .p _, .v _ | .p _, .m _ =>
    exact ⟨False.elim, fun h => by cases h.2⟩

theorem matrel_iff (a : Mat F64) (b : Mat ℚ) : MatRel F64.model (dyadics u) B a b ↔
    (∀ r ∈ a.entries, ∀ s ∈ r, s.Within u B) ∧ b = a.exact := by
  match a, b with
  | .k l, .k l' =>
    refine (forall₂_map_iff₂ krel_iff).trans ?_
    simp [Mat.entries, Mat.exact]
  | .v l, .v l' =>
    refine (forall₂_map_iff₂ varrel_iff).trans ?_
    simp [Mat.entries, Mat.exact]
  | .m l, .m l' =>
    refine (forall₂_map_iff₂ monorel_iff).trans ?_
    simp [Mat.entries, Mat.exact]
  | .p l, .p l' =>
    refine (forall₂_map_iff₂ polyrel_iff).trans ?_
    simp [Mat.entries, Mat.exact]
  | .k _, .v _ | .k _, .m _ | .k _, .p _ | .v _, .k _ | .v _, .m _ | .v _, .p _
  | .m _, .k _ | .m _, .v _ | .m _, .p _ | .p _, .k _ | .p _, .v _ | .p _, .m _ =>
    exact ⟨False.elim, fun h => by cases h.2⟩

theorem Expr.within_s {a : Scalar F64} : (Expr.s a).Within u B ↔ a.Within u B := by
  simp [Expr.Within, Expr.grid]

theorem Expr.within_v {a : Vec F64} : (Expr.v a).Within u B ↔ ∀ s ∈ a.entries, s.Within u B := by
  simp [Expr.Within, Expr.grid]

theorem erel_iff (a : Expr F64) (b : Expr ℚ) : ERel F64.model (dyadics u) B a b ↔
    a.Within u B ∧ b = a.exact := by
  match a, b with
  | .s _, .s _ => rw [Expr.within_s]; refine srel_iff.trans ?_; simp [Expr.exact]
  | .v _, .v _ => rw [Expr.within_v]; refine (vecrel_iff _ _).trans ?_; simp [Expr.exact]
  | .m _, .m _ => refine (matrel_iff _ _).trans ?_; simp [Expr.exact, Expr.Within, Expr.grid]
  | .s _, .v _ | .s _, .m _ | .v _, .s _ | .v _, .m _ | .m _, .s _ | .m _, .v _ =>
    exact ⟨False.elim, fun h => by cases h.2⟩

theorem sconrel_iff (c : SCon F64) (d : SCon ℚ) : SConRel F64.model (dyadics u) A B c d ↔
    (c.lhs.Within u A ∧ c.rhs.Within u B) ∧ d = c.exact := by
  obtain ⟨l, r, s⟩ := c
  obtain ⟨l', r', s'⟩ := d
  unfold SConRel
  rw [srel_iff, srel_iff]
  constructor
  · rintro ⟨⟨h1, h2⟩, ⟨h3, h4⟩, h5⟩
    simp only at h2 h4 h5
    subst h2 h4 h5
    exact ⟨⟨h1, h3⟩, rfl⟩
  · rintro ⟨⟨h1, h3⟩, h⟩
    cases h
    exact ⟨⟨h1, rfl⟩, ⟨h3, rfl⟩, rfl⟩

theorem conrel_iff (c : Con F64) (d : Con ℚ) : ConRel F64.model (dyadics u) A B c d ↔
    c.Within u A B ∧ d = c.exact := by
  match c, d with
  | .s c, .s d =>
    refine (sconrel_iff _ _).trans ?_
    simp [Con.Within, Con.left, Con.right, Expr.within_s, Con.exact]
  | .v ⟨l, r, s⟩, .v ⟨l', r', s'⟩ =>
    show VecRel _ _ _ _ _ ∧ VecRel _ _ _ _ _ ∧ _ ↔ _
    rw [vecrel_iff, vecrel_iff]
    simp only [Con.Within, Con.left, Con.right, Expr.within_v, Con.exact, Con.v.injEq, VCon.mk.injEq]
    tauto
  | .m ⟨l, r, s⟩, .m ⟨l', r', s'⟩ =>
    show MatRel _ _ _ _ _ ∧ MatRel _ _ _ _ _ ∧ _ ↔ _
    rw [matrel_iff, matrel_iff]
    simp only [Con.Within, Con.left, Con.right, Expr.Within, Expr.grid, Con.exact, Con.m.injEq,
      MCon.mk.injEq]
    tauto
  | .s _, .v _ | .s _, .m _ | .v _, .s _ | .v _, .m _ | .m _, .s _ | .m _, .v _ =>
    exact ⟨False.elim, fun h => by cases h.2⟩

theorem Expr.Within.erel {a : Expr F64} (h : a.Within u B) :
    ERel F64.model (dyadicGrids.g u) B a a.exact := (erel_iff _ _).2 ⟨h, rfl⟩

theorem Con.Within.rel {c : Con F64} (h : c.Within u A B) :
    ConRel F64.model (dyadicGrids.g u) A B c c.exact := (conrel_iff _ _).2 ⟨h, rfl⟩

/-- The bounds of the variables in `wrt` are not NaN. -/
def BoundsOK (wrt : List (List (Var F64))) : Prop := ∀ ws ∈ wrt, ∀ v ∈ ws, v.BoundsOK

theorem BoundsOK.rel {wrt : List (List (Var F64))} (h : BoundsOK wrt) :
    List.Forall₂ (List.Forall₂ (VRel F64.model)) wrt (wrt.map (·.map Var.exact)) :=
  (forall₂_map_iff₂ (fun a b => vrel_iff (v := a) (w := b))).2 ⟨h, rfl⟩

/-! ## Vectors and matrices -/

variable {a b : Expr F64}

/-- C59: addition on `float64` is exact addition. -/
theorem plus_array_float64 (ha : a.Within u A) (hb : b.Within u B) (hA : 0 ≤ A) (hB : 0 ≤ B)
    (hu : u ≤ 1074) (h : (A + B) * 2 ^ u ≤ 2 ^ 53) :
    Exactly Expr.exact (Expr.Within u (A + B)) (a.plus b) (a.exact.plus b.exact) :=
  (exactly_iff erel_iff).1 (ERel.plus (F64.fit' hu h) hA hB ha.erel hb.erel)

/-- C59: subtraction on `float64` is exact subtraction. -/
theorem minus_array_float64 (ha : a.Within u A) (hb : b.Within u B) (hA : 0 ≤ A) (hB : 0 ≤ B)
    (hu : u ≤ 1074) (h : (A + B) * 2 ^ u ≤ 2 ^ 53) :
    Exactly Expr.exact (Expr.Within u (A + B)) (a.minus b) (a.exact.minus b.exact) :=
  (exactly_iff erel_iff).1 (ERel.minus (F64.fit' hu h) hA hB ha.erel hb.erel)

theorem rowsLE_exact {N : ℕ} (h : ∀ m, a = .m m → ∀ row ∈ m.entries, row.length ≤ N) :
    a.exact.RowsLE N := by
  match a with
  | .s _ => trivial
  | .v _ => trivial
  | .m m =>
    have h := h m rfl
    cases m <;>
      · intro r hr
        obtain ⟨r', hr', rfl⟩ := List.mem_map.1 hr
        have := h _ (List.mem_map_of_mem hr')
        simpa using this

theorem lenLE_exact {N : ℕ} (h : ∀ v, b = .v v → v.entries.length ≤ N) : b.exact.LenLE N := by
  match b with
  | .s _ => trivial
  | .m _ => trivial
  | .v (.k l) =>
    have := h _ rfl
    simpa [Expr.LenLE, Expr.exact, Vec.exact, Vec.entries] using this
  | .v (.v l) =>
    have := h _ rfl
    simpa [Expr.LenLE, Expr.exact, Vec.exact, Vec.entries] using this
  | .v (.m l) => trivial
  | .v (.p l) => trivial

/-- C59: multiplication on `float64` is exact multiplication; `N` bounds the number of products that are
added up for an entry: the columns of a left matrix and the entries of a right vector. -/
theorem mul_array_float64 {N : ℕ} (ha : a.Within u A) (hb : b.Within w B) (hA : 0 ≤ A) (hB : 0 ≤ B)
    (hN : 1 ≤ N) (hr : ∀ m, a = .m m → ∀ row ∈ m.entries, row.length ≤ N)
    (hv : ∀ v, b = .v v → v.entries.length ≤ N) (hu : u + w ≤ 1074)
    (h : N * (A * B) * 2 ^ (u + w) ≤ 2 ^ 53) :
    Exactly Expr.exact (Expr.Within (u + w) (N * (A * B))) (a.mul b) (a.exact.mul b.exact) :=
  (exactly_iff erel_iff).1 (ERel.mul hA hB hN (F64.fit' hu h) ha.erel (rowsLE_exact hr)
    hb.erel (lenLE_exact hv))

/-- C59: powers of a vector on `float64` are exact powers. -/
theorem power_vec_float64 {a : Vec F64} {n : Int} (ha : (Expr.v a).Within u A) (hA : 1 ≤ A)
    (hu : n.toNat * u ≤ 1074) (h : A ^ n.toNat * 2 ^ (n.toNat * u) ≤ 2 ^ 53) :
    SameRun (n.toNat * u) (A ^ n.toNat) (a.power n) (a.exact.power n) :=
  sameRun_iff.1 (VecRel.power hA (F64.fit' hu h) ha.erel)

/-- C59: powers of a matrix with at most `N` rows on `float64` are exact powers. -/
theorem power_mat_float64 {a : Mat F64} {n : Int} {N : ℕ} (ha : (Expr.m a).Within u A) (hA : 1 ≤ A)
    (hN : 1 ≤ N) (hr : a.entries.length ≤ N) (hu : n.toNat * u ≤ 1074)
    (h : (N * A) ^ n.toNat * 2 ^ (n.toNat * u) ≤ 2 ^ 53) :
    Exactly Mat.exact (fun r => (Expr.m r).Within (n.toNat * u) ((N * A) ^ n.toNat)) (a.power n)
      (a.exact.power n) := by
  refine (exactly_iff matrel_iff).1 (MatRel.power hA hN (F64.fit' hu h) ha.erel ?_)
  cases a <;> simpa [Mat.rowCount, Mat.exact, Mat.entries] using hr

/-- C59: simplification on `float64` is exact simplification. -/
theorem asSimplified_array_float64 (ha : a.Within u A) (hu : u ≤ 1074) (h : A * 2 ^ u ≤ 2 ^ 53) :
    Exactly Expr.exact (Expr.Within u A) a.asSimplified a.exact.asSimplified :=
  (exactly_iff erel_iff).1 (ERel.asSimplified (F64.fit' hu h) ha.erel)

/-- C59: transposition on `float64` is exact transposition, whatever the coefficients. -/
theorem transpose_array_float64 (ha : a.Within u A) :
    Exactly Expr.exact (Expr.Within u A) a.transpose a.exact.transpose :=
  (exactly_iff erel_iff).1 (ERel.transpose ha.erel)

theorem Within.forall₂ {l : List (Expr F64)} (h : ∀ e ∈ l, e.Within u A) :
    List.Forall₂ (ERel F64.model (dyadicGrids.g u) A) l (l.map Expr.exact) :=
  (forall₂_map_iff erel_iff).2 ⟨h, rfl⟩

/-- C59: stacking on `float64` is exact stacking. -/
theorem stack_float64 {l : List (Expr F64)} (h : ∀ e ∈ l, e.Within u A) :
    Exactly Expr.exact (Expr.Within u A) (hstack l) (hstack (l.map Expr.exact)) ∧
    Exactly Expr.exact (Expr.Within u A) (vstack l) (vstack (l.map Expr.exact)) :=
  ⟨(exactly_iff erel_iff).1 (hstack_rel (dyadicGrids.one u) (Within.forall₂ h)),
    (exactly_iff erel_iff).1 (vstack_rel (dyadicGrids.one u) (Within.forall₂ h))⟩

/-- C59: differentiation on `float64` is exact differentiation; `E` bounds the exponents. -/
theorem derivative_array_float64 {v : Var F64} {E : ℕ} (ha : a.Within u A) (hv : v.BoundsOK)
    (hA : 0 ≤ A) (hu : u ≤ 1074) (hE1 : 1 ≤ E)
    (hE : ∀ r ∈ a.exact.grid, ∀ s ∈ r, ∀ n ∈ s.termList, ∀ e ∈ n.exps, 0 ≤ e ∧ e ≤ E)
    (hE53 : E ≤ 2 ^ 53) (h : A * E * 2 ^ u ≤ 2 ^ 53) :
    Exactly Expr.exact (Expr.Within u (A * E)) (a.derivative v) (a.exact.derivative v.exact) := by
  refine (exactly_iff erel_iff).1 (ERel.derivative (E := (E : ℚ)) hA
    (by exact_mod_cast hE1)
    (F64.fit' (Nat.zero_le _) (by rw [pow_zero, mul_one]; exact_mod_cast hE53))
    (F64.fit' hu h) ha.erel (fun r hr s hs n hn e he => ?_) (vrel_iff.2 ⟨hv, rfl⟩))
  obtain ⟨h0, h1⟩ := hE r hr s hs n hn e he
  have e1 : |e| ≤ E := by rw [abs_of_nonneg h0]; exact h1
  have e2 : |e - 1| ≤ E := by rw [abs_le]; omega
  exact ⟨by exact_mod_cast e1, by exact_mod_cast e2⟩

/-- C59: substitution on `float64` is exact substitution; `D` bounds the number of factors of a term. -/
theorem substitute_array_float64 {v : Var F64} {s : Scalar F64} {D : ℕ} (ha : a.Within u A)
    (hv : v.BoundsOK) (hs : s.Within w S) (hA : 0 ≤ A) (hS : 1 ≤ S) (hD1 : 1 ≤ D)
    (hD : ∀ r ∈ a.exact.grid, ∀ s ∈ r, ∀ n ∈ s.termList, n.size ≤ D)
    (hu : u + D * w ≤ 1074) (h : max 1 A * S ^ D * 2 ^ (u + D * w) ≤ 2 ^ 53) :
    Exactly Expr.exact (Expr.Within (u + D * w) (A * S ^ D)) (a.substitute v s)
      (a.exact.substitute v.exact s.exact) := by
  obtain ⟨h1, h2⟩ := subst_fits hS hu h
  exact (exactly_iff erel_iff).1 (ERel.substitute hA hS h1 ha.erel hD hD1 h2
    (vrel_iff.2 ⟨hv, rfl⟩) hs.srel)

/-- C59: dimensions, well-formedness, degree and variables that are read from `float64` expressions are
the exact ones. -/
theorem read_array_float64 (ha : a.Within u A) :
    a.check = a.exact.check ∧ a.dims = a.exact.dims ∧ a.degree = a.exact.degree ∧
      a.variables.map (List.map Var.exact) = a.exact.variables :=
  ⟨rel_true ha.erel.check, rel_eq ha.erel.dims, rel_eq ha.erel.degree,
    ((exactly_iff (fun l l' => forall₂_map_iff (l := l) (l' := l')
      (fun a b => vrel_iff (v := a) (w := b)))).1 ha.erel.variables).1⟩

/-- C59: the constants that are read from a `float64` vector or matrix are the exact ones. -/
theorem constant_array_float64 :
    (∀ a : Vec F64, (Expr.v a).Within u A → a.constant.map (List.map F64.val) = a.exact.constant) ∧
    (∀ a : Mat F64, (Expr.m a).Within u A →
      a.constant.map (List.map (List.map F64.val)) = a.exact.constant) :=
  ⟨fun a ha => ((exactly_iff (fun l l' => forall₂_map_iff (l := l) (l' := l') krel_iff)).1
      (VecRel.constant (a := a) (b := a.exact) ha.erel)).1,
    fun a ha => ((exactly_iff (fun l l' => forall₂_map_iff₂ (l := l) (l' := l') krel_iff)).1
      (MatRel.constant (a := a) (b := a.exact) ha.erel)).1⟩

/-- C59: the linear coefficients that are read from a `float64` vector are the exact ones. -/
theorem linearCoeff_vec_float64 {a : Vec F64} (ha : (Expr.v a).Within u A)
    {wrt : List (List (Var F64))} (hw : BoundsOK wrt) :
    (a.linearCoeff wrt).map (List.map (List.map F64.val)) =
      a.exact.linearCoeff (wrt.map (·.map Var.exact)) :=
  ((exactly_iff (fun l l' => forall₂_map_iff₂ (l := l) (l' := l') krel_iff)).1
    (VecRel.linearCoeff (a := a) (b := a.exact) (dyadicGrids.one u) ha.erel hw.rel)).1

/-! ## Constraints -/

variable {c o : Con F64}

/-- C59: `Comparison` on `float64` builds the exact constraint. -/
theorem comparison_float64 (ha : a.Within u A) (hb : b.Within u B) (s : Sense) (hu : u ≤ 1074)
    (h : B * 2 ^ u ≤ 2 ^ 53) :
    Exactly Con.exact (Con.Within u A B) (a.comparison b s) (a.exact.comparison b.exact s) :=
  (exactly_iff conrel_iff).1 (ERel.comparison (F64.fit' hu h) ha.erel hb.erel s)

/-- C59: well-formedness, linearity and variables of a `float64` constraint are the exact ones. -/
theorem read_con_float64 (hc : c.Within u A B) :
    c.check = c.exact.check ∧ c.isLinear = c.exact.isLinear ∧
      c.variables.map (List.map Var.exact) = c.exact.variables :=
  ⟨rel_true hc.rel.check, rel_eq hc.rel.isLinear,
    ((exactly_iff (fun l l' => forall₂_map_iff (l := l) (l' := l')
      (fun a b => vrel_iff (v := a) (w := b)))).1 hc.rel.variables).1⟩

/-- C59: `AsSimplifiedConstraint` on `float64` is exact. -/
theorem simplify_con_float64 (hc : c.Within u A B) (hA : 0 ≤ A) (hB : 0 ≤ B) (hu : u ≤ 1074)
    (h : (A + A + (B + B)) * 2 ^ u ≤ 2 ^ 53) :
    Exactly Con.exact (Con.Within u (A + A + (B + B)) (B + A)) c.simplify c.exact.simplify :=
  (exactly_iff conrel_iff).1 (ConRel.simplify hA hB (F64.fit' hu h) hc.rel)

/-- C59: `Substitute` in a `float64` constraint is exact. -/
theorem substitute_con_float64 {v : Var F64} {s : Scalar F64} {D : ℕ} (hc : c.Within u A A)
    (hv : v.BoundsOK) (hs : s.Within w S) (hA : 0 ≤ A) (hS : 1 ≤ S) (hD1 : 1 ≤ D)
    (hD : ∀ r ∈ c.exact.left.grid, ∀ s ∈ r, ∀ n ∈ s.termList, n.size ≤ D)
    (hD' : ∀ r ∈ c.exact.right.grid, ∀ s ∈ r, ∀ n ∈ s.termList, n.size ≤ D)
    (hu : u + D * w ≤ 1074) (h : max 1 A * S ^ D * 2 ^ (u + D * w) ≤ 2 ^ 53) :
    Exactly Con.exact (Con.Within (u + D * w) (A * S ^ D) (A * S ^ D)) (c.substitute v s)
      (c.exact.substitute v.exact s.exact) := by
  obtain ⟨h1, h2⟩ := subst_fits hS hu h
  exact (exactly_iff conrel_iff).1 (ConRel.substitute hA hA hS h1 hc.rel hD hD' hD1 h2 h2
    (vrel_iff.2 ⟨hv, rfl⟩) hs.srel)

/-- C59: compiling `float64` constraints into scalar constraints is exact. -/
theorem compileAll_float64 {l : List (Con F64)} (hl : ∀ c ∈ l, c.Within u A B) :
    Exactly (List.map SCon.exact) (fun r => ∀ c ∈ r, c.lhs.Within u A ∧ c.rhs.Within u B)
      (compileAll l) (compileAll (l.map Con.exact)) :=
  (exactly_iff (fun l l' => forall₂_map_iff (l := l) (l' := l') sconrel_iff)).1 (compileAll_rel
    ((forall₂_map_iff (A := ConRel F64.model (dyadics u) A B) conrel_iff).2 ⟨hl, rfl⟩))

theorem pair_iff {f : F64 → ℚ} {P P' : F64 → Prop} {Q Q' : F64 → ℚ → Prop}
    (h : ∀ a b, Q a b ↔ P a ∧ b = f a) (h' : ∀ a b, Q' a b ↔ P' a ∧ b = f a)
    (x : List F64 × F64) (y : List ℚ × ℚ) :
    (List.Forall₂ Q x.1 y.1 ∧ Q' x.2 y.2) ↔
      ((∀ a ∈ x.1, P a) ∧ P' x.2) ∧ y = (x.1.map f, f x.2) := by
  rw [forall₂_map_iff h, h', Prod.ext_iff]
  tauto

theorem pair_iff₂ {f : F64 → ℚ} {P P' : F64 → Prop} {Q Q' : F64 → ℚ → Prop}
    (h : ∀ a b, Q a b ↔ P a ∧ b = f a) (h' : ∀ a b, Q' a b ↔ P' a ∧ b = f a)
    (x : List (List F64) × List F64) (y : List (List ℚ) × List ℚ) :
    (List.Forall₂ (List.Forall₂ Q) x.1 y.1 ∧ List.Forall₂ Q' x.2 y.2) ↔
      ((∀ r ∈ x.1, ∀ a ∈ r, P a) ∧ ∀ a ∈ x.2, P' a) ∧ y = (x.1.map (·.map f), x.2.map f) := by
  rw [forall₂_map_iff₂ h, forall₂_map_iff h', Prod.ext_iff]
  tauto

/-- C59: the rows and right sides of `LinearInequalityConstraintRepresentation` and
`LinearEqualityConstraintRepresentation` of a scalar constraint on `float64` are the exact ones. -/
theorem linear_rep_float64 {c : SCon F64} (hc : (Con.s c).Within u A B) (hu : u ≤ 1074)
    (h : (A + B) * 2 ^ u ≤ 2 ^ 53) {wrt : List (List (Var F64))} (hw : BoundsOK wrt) :
    (c.linearIneq wrt).map (fun r => (r.1.map F64.val, r.2.val)) =
      c.exact.linearIneq (wrt.map (·.map Var.exact)) ∧
    (c.linearEq wrt).map (fun r => (r.1.map F64.val, r.2.val)) =
      c.exact.linearEq (wrt.map (·.map Var.exact)) :=
  ⟨((exactly_iff (pair_iff krel_iff krel_iff)).1
      (SConRel.linearIneq (F64.fit' hu h) hc.rel hw.rel)).1,
    ((exactly_iff (pair_iff krel_iff krel_iff)).1
      (SConRel.linearEq (F64.fit' hu h) hc.rel hw.rel)).1⟩

/-- C59: the same for vector constraints. -/
theorem linear_rep_vec_float64 {c : VCon F64} (hc : (Con.v c).Within u A B) (hA : 0 ≤ A) (hB : 0 ≤ B)
    (hu : u ≤ 1074) (h : (A + (B + B)) * 2 ^ u ≤ 2 ^ 53) {wrt : List (List (Var F64))}
    (hw : BoundsOK wrt) :
    (c.linearIneq wrt).map (fun r => (r.1.map (·.map F64.val), r.2.map F64.val)) =
      VCon.linearIneq ⟨c.lhs.exact, c.rhs.exact, c.sense⟩ (wrt.map (·.map Var.exact)) ∧
    (c.linearEq wrt).map (fun r => (r.1.map (·.map F64.val), r.2.map F64.val)) =
      VCon.linearEq ⟨c.lhs.exact, c.rhs.exact, c.sense⟩ (wrt.map (·.map Var.exact)) :=
  ⟨((exactly_iff (pair_iff₂ krel_iff krel_iff)).1
      (VConRel.linearIneq hA hB (F64.fit' hu h) hc.rel hw.rel)).1,
    ((exactly_iff (pair_iff₂ krel_iff krel_iff)).1
      (VConRel.linearEq hA hB (F64.fit' hu h) hc.rel hw.rel)).1⟩

/-- C59: `ScaleBy` on `float64` is exact. -/
theorem scaleBy_float64 {c : SCon F64} {x : F64} (hc : (Con.s c).Within u A A)
    (hx : (Scalar.k x).Within w S) (hu : u + w ≤ 1074) (h : A * S * 2 ^ (u + w) ≤ 2 ^ 53) :
    Exactly SCon.exact
      (fun r => r.lhs.Within (u + w) (A * S) ∧ r.rhs.Within (u + w) (A * S))
      (c.scaleBy x) (c.exact.scaleBy x.val) :=
  (exactly_iff sconrel_iff).1
    (SConRel.scaleBy (F64.fit' hu h) (F64.fit' hu h) hc.rel ((krel_iff _ _).2 ⟨hx, rfl⟩))

/-- C59: the answer of `IsNonnegativityConstraint` on `float64` is the exact one. -/
theorem isNonneg_float64 {c : SCon F64} (hc : (Con.s c).Within u A B) (hu : u ≤ 1074)
    (h : (A + B + B) * 2 ^ u ≤ 2 ^ 53) : c.isNonneg = c.exact.isNonneg :=
  rel_eq (SConRel.isNonneg (F64.fit' hu h) hc.rel)

theorem PowTwo.recip {q : ℚ} (h : PowTwo w q) : q ≠ 0 ∧ q⁻¹ ∈ dyadics w ∧ |q⁻¹| ≤ 2 ^ w := by
  obtain ⟨k, hk, hq⟩ := h
  rw [abs_le] at hk
  have h0 : q ≠ 0 := by
    rintro rfl
    rw [abs_zero] at hq
    exact absurd hq.symm (zpow_ne_zero _ (by norm_num))
  have hi : |q⁻¹| = 2 ^ (-k) := by rw [abs_inv, hq, zpow_neg]
  refine ⟨h0, ?_, ?_⟩
  · have key : (2 : ℚ) ^ (-k) ∈ dyadics w := by
      rw [mem_dyadics]
      refine ⟨2 ^ (w - k).toNat, ?_⟩
      rw [eq_div_iff (by positivity)]
      push_cast
      rw [← zpow_natCast, ← zpow_natCast, ← zpow_add₀ (by norm_num : (2 : ℚ) ≠ 0)]
      congr 1
      omega
    rcases abs_choice q⁻¹ with e | e
    · rw [← e, hi]; exact key
    · have : q⁻¹ = -(2 : ℚ) ^ (-k) := by rw [← hi, e, neg_neg]
      rw [this]; exact (dyadics w).neg_mem key
  · rw [hi, ← zpow_natCast]
    exact zpow_le_zpow_right₀ (by norm_num) (by omega)

theorem SCon.Divides.mono {Q Q' : ℚ → Prop} (h : ∀ q, Q q → Q' q) {d : SCon ℚ} (hd : d.Divides Q) :
    d.Divides Q' :=
  fun c' v l q h1 h2 h3 h4 => h q (hd c' v l q h1 h2 h3 h4)

theorem Con.Divides.mono {Q Q' : ℚ → Prop} (h : ∀ q, Q q → Q' q) {d : Con ℚ} (hd : d.Divides Q) :
    d.Divides Q' := by
  match d with
  | .s _ => exact SCon.Divides.mono h hd
  | .v _ => exact fun n hn k hk => (hd n hn k hk).mono (fun _ hp => hp.mono h)
  | .m _ => exact fun n hn k hk => (hd n hn k hk).mono (fun _ hp => hp.mono h)

/-- C59: the answer of `ImpliesThisIsAlsoSatisfied` on `float64` is the exact one, if it divides by powers
of two only (`PowTwo w`, for example coefficients `1` and `-1`). -/
theorem implies_float64 (hc : c.Within u A A) (ho : o.Within u A A) (hA : 0 ≤ A)
    (hd : c.exact.Divides (PowTwo w)) (hp : o.exact.Divides (PowTwo w)) (hu : u ≤ 1074) (hw : w ≤ 26)
    (huw : u + w ≤ 1074) (h : (A + A + A) * 2 ^ w * 2 ^ (u + w) ≤ 2 ^ 53) :
    c.implies o = c.exact.implies o.exact := by
  have h1 : (1 : ℚ) ≤ 2 ^ w := one_le_pow₀ (by norm_num)
  have h3 : (A + A + A) * 2 ^ u ≤ 2 ^ 53 := by
    refine le_trans ?_ h
    have e : (2 : ℚ) ^ u ≤ 2 ^ (u + w) := pow_le_pow_right₀ (by norm_num) (by omega)
    have p : 0 ≤ A + A + A := by linarith
    calc (A + A + A) * 2 ^ u ≤ (A + A + A) * 2 ^ (u + w) := mul_le_mul_of_nonneg_left e p
      _ ≤ (A + A + A) * 2 ^ w * 2 ^ (u + w) := by
          refine mul_le_mul_of_nonneg_right ?_ (by positivity)
          exact le_mul_of_one_le_right p h1
  have h2 : (2 : ℚ) ^ w * 2 ^ w ≤ 2 ^ 53 := by
    rw [← pow_add]; exact pow_le_pow_right₀ (by norm_num) (by omega)
  exact rel_eq (ConRel.implies (j := w) (C := 2 ^ w) (F64.fit' hu h3) (F64.fit' (by omega) h2)
    (F64.fit' huw h) (by positivity) hA hc.rel ho.rel (hd.mono fun _ h => h.recip)
    (hp.mono fun _ h => h.recip))

/-! ## What the exact theorems say about `float64` -/

theorem Exactly.ok {α β : Type} {f : α → β} {P : α → Prop} {x : Go α} {y : Go β} {r : α}
    (h : Exactly f P x y) (hx : x = .ok r) : y = .ok (f r) := by
  rw [← h.1, hx]; rfl

/-- C59 with C57: at 0/1 assignments, whatever `Plus` and `Minus` of `float64` matrices return has exactly
the values of the sum and the difference. -/
theorem array_float64_binary {r k : ℕ} (hr : 0 < r) (hk : 0 < k) {ρ : ℕ → ℚ}
    {M N : Matrix (Fin r) (Fin k) ℚ} (ca : a.exact.Canon) (cb : b.exact.Canon)
    (va : a.exact.ValuesAt ρ M) (vb : b.exact.ValuesAt ρ N) (ha : a.Within u A) (hb : b.Within u B)
    (hA : 0 ≤ A) (hB : 0 ≤ B) (hu : u ≤ 1074) (h : (A + B) * 2 ^ u ≤ 2 ^ 53)
    (hρ : Binary ρ (a.exact.IDs ∪ b.exact.IDs)) :
    (∀ e, a.plus b = .ok e → e.exact.ValuesAt ρ (M + N)) ∧
    (∀ e, a.minus b = .ok e → e.exact.ValuesAt ρ (M - N)) :=
  ⟨fun _ he => (plus_array_one_nonzero hr hk ca va cb vb hρ.oneNonzero
      ((plus_array_float64 ha hb hA hB hu h).ok he)).2,
    fun _ he => (minus_array_one_nonzero hr hk ca va cb vb hρ.oneNonzero
      ((minus_array_float64 ha hb hA hB hu h).ok he)).2⟩

/-- The coefficients of the variables in the difference of the sides are powers of two (or zero). -/
def SCon.PowCoeffs (w : ℕ) (c : SCon ℚ) : Prop :=
  ∀ i, MvPolynomial.coeff (Finsupp.single i 1) (c.lhs.den - c.rhs.den) = 0 ∨
    PowTwo w (MvPolynomial.coeff (Finsupp.single i 1) (c.lhs.den - c.rhs.den))

theorem SCon.Plain.divides {c : SCon ℚ} (hc : c.Plain) (nc : c.Nonconst) (hp : c.PowCoeffs w) :
    c.Divides (PowTwo w) := by
  intro c' v l q e1 e2 e3 e4
  obtain ⟨d, k, h1, h2, h3, -, -, h6, h7, h8⟩ := plain_normal hc
  rw [h1, Except.ok.injEq] at e1
  subst e1
  rw [h7, Except.ok.injEq] at e2
  obtain ⟨a, a1, a2, -⟩ := h8 v e2
  rw [a1, Except.ok.injEq] at e3
  subst e3
  obtain rfl : a = q := Except.ok.inj e4
  have ha := coeff_ne_zero_of_nonconst nc h2 h3 e2 h6 a2
  have hden : d.lhs.den = MvPolynomial.C a * MvPolynomial.X v.id := by
    apply MvPolynomial.funext
    intro ρ
    have := a2 ρ
    simpa [Scalar.value] using this
  have hcoef : MvPolynomial.coeff (Finsupp.single v.id 1) (c.lhs.den - c.rhs.den) = a := by
    have : c.lhs.den - c.rhs.den = MvPolynomial.C a * MvPolynomial.X v.id - MvPolynomial.C k := by
      rw [← hden, h6]; ring
    have h0 : ¬ (0 : ℕ →₀ ℕ) = Finsupp.single v.id 1 := by
      intro e
      have := congrArg (fun f => f v.id) e
      simp at this
    rw [this, MvPolynomial.coeff_sub, MvPolynomial.coeff_C_mul, MvPolynomial.coeff_C,
      MvPolynomial.coeff_X, if_neg h0]
    simp
  rcases hp v.id with h | h
  · exact absurd (hcoef.symm.trans h) ha
  · rwa [hcoef] at h

theorem Con.Canon.divides {c : Con ℚ} (hc : c.Canon) (pc : c.Plain)
    (hp : ∀ s ∈ c.entries.flatten, s.PowCoeffs w) : c.Divides (PowTwo w) := by
  obtain ⟨r, k, h1, h2, hr, hk⟩ := hc.shape
  have key : ∀ i < r, ∀ j < k,
      SCon.Divides (PowTwo w) ⟨c.left.entryD i j, c.right.entryD i j, c.sense⟩ := by
    intro i hi j hj
    have hm : (⟨c.left.entryD i j, c.right.entryD i j, c.sense⟩ : SCon ℚ) ∈ c.entries.flatten := by
      rw [Con.entries_eq h1 h2, List.mem_flatten]
      exact ⟨_, List.mem_map_of_mem (List.mem_range.2 hi), List.mem_map_of_mem (List.mem_range.2 hj)⟩
    exact (pc _ hm).1.divides (pc _ hm).2 (hp _ hm)
  cases c with
  | s c =>
    have hm : c ∈ (Con.s c).entries.flatten := by
      simp [Con.entries, Con.left, Con.right, Con.sense, Expr.grid]
    exact (pc _ hm).1.divides (pc _ hm).2 (hp _ hm)
  | v c =>
    obtain rfl := earr_v_cols hr (EArr.self h1)
    intro n hn i hi
    unfold VCon.len at hn
    rw [show c.check = .ok () from hc.check, Go.ok_bind, Vec.len_ok hc.left h1 hr,
      Except.ok.injEq] at hn
    subst hn
    rw [VCon.atVec_ok hc h1 h2 hi]
    rintro _ ⟨⟩
    exact key i hi 0 hk
  | m c =>
    intro d hd ij hij
    unfold MCon.dims at hd
    rw [show c.check = .ok () from hc.check, Go.ok_bind,
      show c.lhs.dims = .ok (r, k) from Expr.dims_ok hc.left h1 hr, Except.ok.injEq] at hd
    subst hd
    unfold indexPairs at hij
    simp only [List.mem_flatMap, List.mem_range, List.mem_map] at hij
    obtain ⟨i, hi, j, hj, rfl⟩ := hij
    rw [MCon.at_ok hc h1 h2 hi hj]
    rintro _ ⟨⟩
    exact key i hi j hj

/-- C59 with C38: on `float64`, between constraints as in `implies_all_sound_partial` whose coefficients
are powers of two, `ImpliesThisIsAlsoSatisfied` answers and a positive answer is right.  Missing:
coefficients that are not powers of two (`implies_float64_false`) and what is missing in C38. -/
theorem implies_float64_sound_partial {o : SCon F64} (hc : c.exact.Canon) (pc : c.exact.Plain)
    (po : o.exact.Plain) (no : o.exact.Nonconst)
    (qc : ∀ s ∈ c.exact.entries.flatten, s.PowCoeffs w) (qo : o.exact.PowCoeffs w)
    (wc : c.Within u A A) (wo : (Con.s o).Within u A A) (hA : 0 ≤ A) (hw : w ≤ 26)
    (huw : u + w ≤ 1074) (h : (A + A + A) * 2 ^ w * 2 ^ (u + w) ≤ 2 ^ 53) :
    ∃ b, c.implies (.s o) = .ok b ∧ (b = true → ∀ ρ, c.exact.Sat ρ → o.exact.Sat ρ) := by
  rw [implies_float64 wc wo hA (hc.divides pc qc) (show Con.Divides _ (.s _) from po.divides no qo)
    (by omega) hw huw h]
  exact implies_all_sound_partial hc pc po no

/-- C59 with C38, converse: on `float64`, between constraints on one variable whose coefficients are
powers of two the answer is exact. -/
theorem implies_float64_exact_partial {c o : SCon F64} (pc : c.exact.Plain) (po : o.exact.Plain)
    (nc : c.exact.Nonconst) (no : o.exact.Nonconst) (qc : c.exact.PowCoeffs w)
    (qo : o.exact.PowCoeffs w) (wc : (Con.s c).Within u A A) (wo : (Con.s o).Within u A A) (hA : 0 ≤ A)
    (hw : w ≤ 26) (huw : u + w ≤ 1074) (h : (A + A + A) * 2 ^ w * 2 ^ (u + w) ≤ 2 ^ 53)
    {x y : Var ℚ} (hxy : x.id = y.id) (hcv : ∀ v, c.exact.Mentions v → v = x)
    (hov : ∀ v, o.exact.Mentions v → v = y) :
    ∃ r, c.implies (.s o) = .ok r ∧ (r = true ↔ ∀ ρ, c.exact.Sat ρ → o.exact.Sat ρ) := by
  have e : (Con.s c).implies (.s o) = (Con.s c).exact.implies (.s o.exact) :=
    implies_float64 wc wo hA (show Con.Divides _ (.s _) from pc.divides nc qc)
      (show Con.Divides _ (.s _) from po.divides no qo) (by omega) hw huw h
  have e' : c.implies (.s o) = c.exact.implies (.s o.exact) := e
  rw [e']
  exact implies_exact_partial pc po nc no hxy hcv hov

/-! ## Division by other numbers -/

theorem roundEven_near {q : ℚ} {n : ℤ} (h : |q - n| < 1 / 2) : roundEven q = n := by
  rw [abs_lt] at h
  unfold roundEven
  by_cases hn : (n : ℚ) ≤ q
  · have hf : ⌊q⌋ = n := by rw [Int.floor_eq_iff]; exact ⟨hn, by linarith⟩
    rw [hf, if_pos (by linarith)]
  · have hf : ⌊q⌋ = n - 1 := by
      rw [Int.floor_eq_iff]; push_cast; exact ⟨by linarith, by linarith⟩
    rw [hf, if_neg (by push_cast; linarith), if_pos (by push_cast; linarith)]
    ring

theorem lastBit_eq {q : ℚ} {e : ℤ} (h1 : 2 ^ e ≤ |q|) (h2 : |q| < 2 ^ (e + 1)) (he : -1022 ≤ e) :
    lastBit q = e - 52 := by
  have hq : 0 < |q| := lt_of_lt_of_le (zpow_pos (by norm_num) e) h1
  have hl : Int.log 2 |q| = e := by
    have a1 : e ≤ Int.log 2 |q| := (Int.zpow_le_iff_le_log (by norm_num) hq).1 (by exact_mod_cast h1)
    have a2 : Int.log 2 |q| < e + 1 := (Int.lt_zpow_iff_log_lt (by norm_num) hq).1 (by exact_mod_cast h2)
    omega
  unfold lastBit
  rw [hl, max_eq_left (by omega)]

/-- The nearest `float64` to `q`, which lies between two powers of two. -/
theorem ofRat_near {q : ℚ} {n e : ℤ} (h1 : 2 ^ e ≤ |q|) (h2 : |q| < 2 ^ (e + 1)) (he : -1022 ≤ e)
    (hn : |q / 2 ^ (e - 52) - n| < 1 / 2) (hb : |(n : ℚ) * 2 ^ (e - 52)| < 2 ^ 1024) :
    F64.ofRat q = .fin (n * 2 ^ (e - 52)) := by
  have hr : round53 q = n * 2 ^ (e - 52) := by
    unfold round53
    rw [lastBit_eq h1 h2 he, roundEven_near hn]
  unfold F64.ofRat
  rw [hr, if_pos hb]

/-- The `float64` nearest to `1/49`. -/
def recip49 : ℚ := 5882252574524729 * 2 ^ (-58 : ℤ)

theorem small_lt {q : ℚ} (h : |q| ≤ 2) : |q| < 2 ^ 1024 :=
  lt_of_le_of_lt h (by
    calc (2 : ℚ) = 2 ^ 1 := by norm_num
      _ < 2 ^ 1024 := pow_lt_pow_right₀ (by norm_num) (by norm_num))

theorem ofRat_recip49 : F64.ofRat (1 / 49) = .fin recip49 := by
  have := ofRat_near (q := 1 / 49) (n := 5882252574524729) (e := -6)
    (by rw [abs_of_pos (by norm_num)]; norm_num) (by rw [abs_of_pos (by norm_num)]; norm_num)
    (by norm_num) (by norm_num [abs_lt])
    (small_lt (by rw [abs_of_pos (by positivity)]; norm_num))
  rw [this]
  norm_num [recip49]

/-- `49 * (1/49)` on `float64`. -/
theorem ofRat_49 : F64.ofRat (49 * recip49) = .fin (1 - 2 ^ (-53 : ℤ)) := by
  have := ofRat_near (q := 49 * recip49) (n := 2 ^ 53 - 1) (e := -1)
    (by rw [abs_of_pos (by norm_num [recip49])]; norm_num [recip49])
    (by rw [abs_of_pos (by norm_num [recip49])]; norm_num [recip49])
    (by norm_num) (by norm_num [abs_lt, recip49])
    (small_lt (by rw [abs_of_pos (by norm_num)]; norm_num))
  rw [this]
  norm_num

/-- `49 x <= 49` -/
def f64c : SCon F64 := ⟨.mono ⟨.fin 49, [1], [f64Var 1]⟩, .k (.fin 49), .le⟩

/-- `x <= 1 - 2^-53` -/
def f64o : SCon F64 := ⟨.var (f64Var 1), .k (.fin (1 - 2 ^ (-53 : ℤ))), .le⟩

theorem f64o_scaled : F64.ofRat ((1 - 2 ^ (-53 : ℤ)) * 1) = .fin (1 - 2 ^ (-53 : ℤ)) := by
  have := ofRat_near (q := (1 - 2 ^ (-53 : ℤ)) * 1) (n := 2 ^ 53 - 1) (e := -1)
    (by rw [abs_of_pos (by norm_num)]; norm_num)
    (by rw [abs_of_pos (by norm_num)]; norm_num)
    (by norm_num) (by norm_num [abs_lt])
    (small_lt (by rw [abs_of_pos (by norm_num)]; norm_num))
  rw [this]
  norm_num

theorem ofRat_one : F64.ofRat 1 = .fin 1 := by
  have := ofRat_near (q := 1) (n := 2 ^ 52) (e := 0)
    (by norm_num) (by norm_num) (by norm_num) (by norm_num)
    (small_lt (by rw [abs_of_pos (by norm_num)]; norm_num))
  rw [this]
  norm_num

/-- Without powers of two C59 is false and so is C38 on `float64`: `49 x <= 49` is said to imply
`x <= 1 - 2^-53`, although `x = 1` satisfies the first only. -/
theorem implies_float64_false :
    f64c.implies (.s f64o) = .ok true ∧ f64c.exact.implies (.s f64o.exact) = .ok false ∧
      f64c.exact.Sat (fun _ => 1) ∧ ¬ f64o.exact.Sat (fun _ => 1) := by
  refine ⟨?_, ?_, ?_, ?_⟩
  · show SCon.impliesS f64c f64o = .ok true
    have d1 : GoNum.div GoNum.one (F64.fin 49) = F64.fin recip49 := by
      show F64.div (F64.fin 1) (F64.fin 49) = _
      simp only [F64.div]
      rw [if_neg (by norm_num)]
      exact ofRat_recip49
    have d2 : GoNum.div GoNum.one (GoNum.one : F64) = F64.fin 1 := by
      show F64.div (F64.fin 1) (F64.fin 1) = _
      simp only [F64.div]
      rw [if_neg (by norm_num), div_one]
      exact ofRat_one
    have c1 : f64c.check = .ok () := rfl
    have c2 : f64o.check = .ok () := rfl
    have s1 : f64c.simplify = .ok f64c := rfl
    have s2 : f64o.simplify = .ok f64o := rfl
    have v1 : Con.variables (.s f64c) = .ok [f64Var 1] := rfl
    have v2 : Con.variables (.s f64o) = .ok [f64Var 1] := rfl
    have l1 : f64c.lhs.linearCoeff [[f64Var 1]] = .ok [.fin 49] := rfl
    have l2 : f64o.lhs.linearCoeff [[f64Var 1]] = .ok [GoNum.one] := rfl
    have g : ∀ x : F64, goGet [x] 0 = .ok x := fun _ => rfl
    unfold SCon.impliesS
    rw [c1, Go.ok_bind, c2, Go.ok_bind, s1, Go.ok_bind, s2, Go.ok_bind, v1, Go.ok_bind, v2, Go.ok_bind,
      if_pos ⟨rfl, rfl, rfl⟩, l1, Go.ok_bind, g, Go.ok_bind, l2, Go.ok_bind, g, Go.ok_bind, d1, d2]
    have m1 : GoNum.mul (F64.fin 49) (F64.fin recip49) = F64.fin (1 - 2 ^ (-53 : ℤ)) := ofRat_49
    have m2 : GoNum.mul (F64.fin (1 - 2 ^ (-53 : ℤ))) (F64.fin 1) = F64.fin (1 - 2 ^ (-53 : ℤ)) :=
      f64o_scaled
    have r1 : f64c.rhs.mulF64 (.fin recip49) = .ok (.k (.fin (1 - 2 ^ (-53 : ℤ)))) := by
      show kMul (F64.fin 49) (.k (F64.fin recip49)) = _
      simp only [kMul, Go.pure_eq, Go.ok_bind, Scalar.check, m1]
    have r2 : f64o.rhs.mulF64 (.fin 1) = .ok (.k (.fin (1 - 2 ^ (-53 : ℤ)))) := by
      show kMul (F64.fin (1 - 2 ^ (-53 : ℤ))) (.k (F64.fin 1)) = _
      simp only [kMul, Go.pure_eq, Go.ok_bind, Scalar.check, m2]
    obtain ⟨y1, e1⟩ : ∃ y, f64c.lhs.mulF64 (.fin recip49) = .ok y := ⟨_, rfl⟩
    obtain ⟨y2, e2⟩ : ∃ y, f64o.lhs.mulF64 (.fin 1) = .ok y := ⟨_, rfl⟩
    have f1 : flipSense f64c.sense (F64.fin recip49) = .le := by
      have : GoNum.lt (F64.fin recip49) GoNum.zero = false := by
        show decide (recip49 < 0) = false
        norm_num [recip49]
      unfold flipSense
      rw [this]; rfl
    have f2 : flipSense f64o.sense (F64.fin 1) = .le := by
      have : GoNum.lt (F64.fin 1) GoNum.zero = false := by
        show decide ((1 : ℚ) < 0) = false
        norm_num
      unfold flipSense
      rw [this]; rfl
    simp only [SCon.scaleBy, c1, c2, Go.ok_bind, e1, e2, r1, r2, f1, f2, Go.pure_eq, Scalar.constant]
    show Except.ok (decide ((1 - 2 ^ (-53 : ℤ) : ℚ) ≤ 1 - 2 ^ (-53 : ℤ))) = _
    rw [decide_eq_true le_rfl]
  · decide +kernel
  · decide +kernel
  · decide +kernel

/-! ## Concrete cases -/

/-- The polynomial of `f64Poly`. -/
def f64P : Poly F64 := ⟨[⟨.fin (3 / 2), [1, 2], [f64Var 1, f64Var 2]⟩,
  ⟨.fin (-1 / 4), [1], [f64Var 1]⟩, ⟨.fin 5, [], []⟩]⟩

/-- A 2x2 matrix and a vector with entries `3/2 x y^2 - 1/4 x + 5`. -/
def f64Mat : Mat F64 := .p [[f64P, f64P], [f64P, f64P]]

def f64Vec : Vec F64 := .p [f64P, f64P]

theorem f64Mat_grid : ∀ row ∈ (Expr.m f64Mat).grid, ∀ s ∈ row, s = f64Poly := by
  intro row hr s hs
  fin_cases hr <;> fin_cases hs <;> rfl

theorem f64Vec_grid : ∀ row ∈ (Expr.v f64Vec).grid, ∀ s ∈ row, s = f64Poly := by
  intro row hr s hs
  fin_cases hr <;> fin_cases hs <;> rfl

theorem f64Mat_within : (Expr.m f64Mat).Within 2 7 :=
  fun row hr s hs => f64Mat_grid row hr s hs ▸ f64Poly_within

theorem f64Vec_within : (Expr.v f64Vec).Within 2 7 :=
  fun row hr s hs => f64Vec_grid row hr s hs ▸ f64Poly_within

theorem f64Mat_exact_grid : ∀ row ∈ (Expr.m f64Mat).exact.grid, ∀ s ∈ row, s = f64Poly.exact := by
  intro row hr s hs
  fin_cases hr <;> fin_cases hs <;> rfl

theorem f64Vec_exact_grid : ∀ row ∈ (Expr.v f64Vec).exact.grid, ∀ s ∈ row, s = f64Poly.exact := by
  intro row hr s hs
  fin_cases hr <;> fin_cases hs <;> rfl

example : Exactly Expr.exact (Expr.Within 2 (7 + 7)) ((Expr.m f64Mat).plus (.m f64Mat))
    ((Expr.m f64Mat).exact.plus (Expr.m f64Mat).exact) :=
  plus_array_float64 f64Mat_within f64Mat_within (by norm_num) (by norm_num) (by norm_num) (by norm_num)

example : Exactly Expr.exact (Expr.Within 2 (7 + 7)) ((Expr.v f64Vec).minus (.v f64Vec))
    ((Expr.v f64Vec).exact.minus (Expr.v f64Vec).exact) :=
  minus_array_float64 f64Vec_within f64Vec_within (by norm_num) (by norm_num) (by norm_num)
    (by norm_num)

example : Exactly Expr.exact (Expr.Within (2 + 2) ((2 : ℕ) * (7 * 7)))
    ((Expr.m f64Mat).mul (.v f64Vec)) ((Expr.m f64Mat).exact.mul (Expr.v f64Vec).exact) :=
  mul_array_float64 f64Mat_within f64Vec_within (by norm_num) (by norm_num) (by norm_num)
    (by rintro _ ⟨⟩ row hr; fin_cases hr <;> decide) (by rintro _ ⟨⟩; decide) (by norm_num)
    (by norm_num)

/-- The vector `(x/2)`. -/
def f64Vec1 : Vec F64 := .m [⟨.fin (1 / 2), [1], [f64Var 1]⟩]

theorem f64Vec1_within : (Expr.v f64Vec1).Within 1 1 := by
  rw [Expr.within_v]
  intro s hs
  fin_cases hs
  refine ⟨⟨⟨_, rfl⟩, by intro v hv; fin_cases hv; exact f64Var_bounds _⟩, ?_, ?_⟩
  · intro c hc
    fin_cases hc
    exact ⟨1, by simp only [Mono.exact, F64.val]; norm_num⟩
  · simp only [Scalar.absSum, Scalar.exact, Scalar.coeffs, Mono.exact, F64.val, List.map_cons,
      List.map_nil, List.sum_cons, List.sum_nil]
    norm_num [abs_of_pos]

example : SameRun (3 * 1) (1 ^ 3) (f64Vec1.power 3) (f64Vec1.exact.power 3) :=
  power_vec_float64 (n := 3) f64Vec1_within le_rfl (by decide)
    (by rw [show (3 : Int).toNat = 3 from rfl]; norm_num)

example : Exactly Mat.exact (fun r => (Expr.m r).Within (3 * 2) (((2 : ℕ) * 7) ^ 3)) (f64Mat.power 3)
    (f64Mat.exact.power 3) :=
  power_mat_float64 (n := 3) f64Mat_within (by norm_num) (by norm_num) (by decide) (by decide)
    (by rw [show (3 : Int).toNat = 3 from rfl]; norm_num)

example : Exactly Expr.exact (Expr.Within 2 7) (Expr.m f64Mat).asSimplified
    (Expr.m f64Mat).exact.asSimplified :=
  asSimplified_array_float64 f64Mat_within (by norm_num) (by norm_num)

example : Exactly Expr.exact (Expr.Within 2 7) (Expr.m f64Mat).transpose
    (Expr.m f64Mat).exact.transpose := transpose_array_float64 f64Mat_within

example : Exactly Expr.exact (Expr.Within 2 7) (hstack [.m f64Mat, .v f64Vec])
    (hstack [(Expr.m f64Mat).exact, (Expr.v f64Vec).exact]) :=
  (stack_float64 (l := [.m f64Mat, .v f64Vec]) (by
    intro e he
    fin_cases he
    · exact f64Mat_within
    · exact f64Vec_within)).1

example : Exactly Expr.exact (Expr.Within 2 (7 * (2 : ℕ))) ((Expr.m f64Mat).derivative (f64Var 1))
    ((Expr.m f64Mat).exact.derivative (f64Var 1).exact) :=
  derivative_array_float64 f64Mat_within (f64Var_bounds 1) (by norm_num) (by norm_num) (by norm_num)
    (by
      intro r hr s hs n hn e he
      rw [f64Mat_exact_grid r hr s hs] at hn
      fin_cases hn <;> fin_cases he <;> decide) (by norm_num) (by norm_num)

example : Exactly Expr.exact (Expr.Within (2 + 3 * 2) (7 * 7 ^ 3))
    ((Expr.m f64Mat).substitute (f64Var 1) f64Poly)
    ((Expr.m f64Mat).exact.substitute (f64Var 1).exact f64Poly.exact) :=
  substitute_array_float64 f64Mat_within (f64Var_bounds 1) f64Poly_within (by norm_num) (by norm_num)
    (by norm_num)
    (by
      intro r hr s hs n hn
      rw [f64Mat_exact_grid r hr s hs] at hn
      exact f64Poly_size n hn) (by norm_num) (by norm_num)

example : (Expr.m f64Mat).degree = (Expr.m f64Mat).exact.degree :=
  (read_array_float64 f64Mat_within).2.2.1

example : f64Mat.constant.map (List.map (List.map F64.val)) = f64Mat.exact.constant :=
  constant_array_float64.2 f64Mat f64Mat_within

theorem f64Wrt_bounds : BoundsOK [[f64Var 1, f64Var 2]] := by
  intro ws hws v hv
  fin_cases hws
  fin_cases hv <;> exact f64Var_bounds _

example : (f64Vec.linearCoeff [[f64Var 1, f64Var 2]]).map (List.map (List.map F64.val)) =
    f64Vec.exact.linearCoeff ([[f64Var 1, f64Var 2]].map (·.map Var.exact)) :=
  linearCoeff_vec_float64 f64Vec_within f64Wrt_bounds

/-- The constraint `f64Mat <= f64Mat`. -/
def f64MCon : Con F64 := .m ⟨f64Mat, f64Mat, .le⟩

/-- The constraint `f64Vec <= f64Vec`. -/
def f64VCon : VCon F64 := ⟨f64Vec, f64Vec, .le⟩

theorem f64MCon_within : f64MCon.Within 2 7 7 := ⟨f64Mat_within, f64Mat_within⟩

theorem f64VCon_within : (Con.v f64VCon).Within 2 7 7 := ⟨f64Vec_within, f64Vec_within⟩

example : Exactly Con.exact (Con.Within 2 7 7) ((Expr.m f64Mat).comparison (.m f64Mat) .le)
    ((Expr.m f64Mat).exact.comparison (Expr.m f64Mat).exact .le) :=
  comparison_float64 f64Mat_within f64Mat_within .le (by norm_num) (by norm_num)

example : f64MCon.isLinear = f64MCon.exact.isLinear := (read_con_float64 f64MCon_within).2.1

example : Exactly Con.exact (Con.Within 2 (7 + 7 + (7 + 7)) (7 + 7)) f64MCon.simplify
    f64MCon.exact.simplify :=
  simplify_con_float64 f64MCon_within (by norm_num) (by norm_num) (by norm_num) (by norm_num)

example : Exactly Con.exact (Con.Within (2 + 3 * 2) (7 * 7 ^ 3) (7 * 7 ^ 3))
    (f64MCon.substitute (f64Var 1) f64Poly)
    (f64MCon.exact.substitute (f64Var 1).exact f64Poly.exact) := by
  have hD : ∀ r ∈ (Expr.m f64Mat).exact.grid, ∀ s ∈ r, ∀ n ∈ s.termList, n.size ≤ 3 := by
    intro r hr s hs n hn
    rw [f64Mat_exact_grid r hr s hs] at hn
    exact f64Poly_size n hn
  exact substitute_con_float64 f64MCon_within (f64Var_bounds 1) f64Poly_within (by norm_num)
    (by norm_num) (by norm_num) hD hD (by norm_num) (by norm_num)

example : Exactly (List.map SCon.exact) (fun r => ∀ c ∈ r, c.lhs.Within 2 7 ∧ c.rhs.Within 2 7)
    (compileAll [f64MCon, .v f64VCon]) (compileAll ([f64MCon, .v f64VCon].map Con.exact)) :=
  compileAll_float64 (by
    intro c hc
    fin_cases hc
    · exact f64MCon_within
    · exact f64VCon_within)

example := linear_rep_vec_float64 f64VCon_within (by norm_num) (by norm_num) (by norm_num)
  (by norm_num) f64Wrt_bounds

/-- The coefficients of a term are within bounds. -/
theorem mono_within {q : ℚ} {n : ℤ} {i : ℕ} (h : q = n / 2 ^ u) (hB : |q| ≤ B) :
    (Scalar.mono ⟨.fin q, [1], [f64Var i]⟩).Within u B := by
  refine ⟨⟨⟨_, rfl⟩, by intro v hv; fin_cases hv; exact f64Var_bounds _⟩, ?_, ?_⟩
  · intro c hc
    fin_cases hc
    exact ⟨n, h⟩
  · simpa [Scalar.absSum, Scalar.exact, Scalar.coeffs, Mono.exact, F64.val] using hB

theorem k_within {q : ℚ} {n : ℤ} (h : q = n / 2 ^ u) (hB : |q| ≤ B) :
    (Scalar.k (.fin q)).Within u B := by
  refine ⟨⟨_, rfl⟩, ?_, ?_⟩
  · intro c hc
    fin_cases hc
    exact ⟨n, h⟩
  · simpa [Scalar.absSum, Scalar.exact, Scalar.coeffs, F64.val] using hB

/-- `2x <= 6` -/
def f64c2 : SCon F64 := ⟨.mono ⟨.fin 2, [1], [f64Var 1]⟩, .k (.fin 6), .le⟩

/-- `-x >= -4` -/
def f64c3 : SCon F64 := ⟨.mono ⟨.fin (-1), [1], [f64Var 1]⟩, .k (.fin (-4)), .ge⟩

theorem f64c2_within : (Con.s f64c2).Within 0 6 6 :=
  ⟨Expr.within_s.2 (mono_within (n := 2) (by norm_num) (by norm_num)),
    Expr.within_s.2 (k_within (n := 6) (by norm_num) (by norm_num))⟩

theorem f64c3_within : (Con.s f64c3).Within 0 6 6 :=
  ⟨Expr.within_s.2 (mono_within (n := -1) (by norm_num) (by norm_num)),
    Expr.within_s.2 (k_within (n := -4) (by norm_num) (by norm_num))⟩

example := linear_rep_float64 f64c2_within (by norm_num) (by norm_num) f64Wrt_bounds

example : f64c2.isNonneg = f64c2.exact.isNonneg :=
  isNonneg_float64 f64c2_within (by norm_num) (by norm_num)

example : Exactly SCon.exact (fun r => r.lhs.Within (0 + 1) (6 * 1) ∧ r.rhs.Within (0 + 1) (6 * 1))
    (f64c2.scaleBy (.fin (1 / 2))) (f64c2.exact.scaleBy (1 / 2)) :=
  scaleBy_float64 (w := 1) f64c2_within (k_within (n := 1) (by norm_num) (by norm_num [abs_of_pos]))
    (by norm_num) (by norm_num)

theorem f64c2_plain : f64c2.exact.Plain :=
  ⟨(SCon.okDeg_spec (n := 1) (by decide +kernel)).1, ⟨trivial, trivial⟩,
    (SCon.okDeg_spec (n := 1) (by decide +kernel)).2, by
      simp [f64c2, SCon.exact, Scalar.exact, Mono.exact, Mono.den, MvPolynomial.coeff_monomial,
        Mono.degs]⟩

theorem f64c3_plain : f64c3.exact.Plain :=
  ⟨(SCon.okDeg_spec (n := 1) (by decide +kernel)).1, ⟨trivial, trivial⟩,
    (SCon.okDeg_spec (n := 1) (by decide +kernel)).2, by
      simp [f64c3, SCon.exact, Scalar.exact, Mono.exact, Mono.den, MvPolynomial.coeff_monomial,
        Mono.degs]⟩

theorem f64c2_diff (i : ℕ) :
    MvPolynomial.coeff (Finsupp.single i 1) (f64c2.exact.lhs.den - f64c2.exact.rhs.den) =
      if i = 1 then 2 else 0 := by
  have hz : (0 : ℕ →₀ ℕ) ≠ Finsupp.single i 1 := fun e => by simpa using DFunLike.congr_fun e i
  by_cases h : i = 1
  · subst h
    simp [f64c2, SCon.exact, Scalar.exact, Mono.exact, Mono.den, MvPolynomial.coeff_monomial,
      Mono.degs, MvPolynomial.coeff_C, hz, Var.exact, f64Var, F64.val]
  · have : (Finsupp.single 1 1 : ℕ →₀ ℕ) ≠ Finsupp.single i 1 := fun e => by
      have := DFunLike.congr_fun e 1
      simp [h] at this
    simp [f64c2, SCon.exact, Scalar.exact, Mono.exact, Mono.den, MvPolynomial.coeff_monomial,
      Mono.degs, MvPolynomial.coeff_C, hz, Var.exact, f64Var, F64.val, this, h]

theorem f64c3_diff (i : ℕ) :
    MvPolynomial.coeff (Finsupp.single i 1) (f64c3.exact.lhs.den - f64c3.exact.rhs.den) =
      if i = 1 then -1 else 0 := by
  have hz : (0 : ℕ →₀ ℕ) ≠ Finsupp.single i 1 := fun e => by simpa using DFunLike.congr_fun e i
  by_cases h : i = 1
  · subst h
    simp [f64c3, SCon.exact, Scalar.exact, Mono.exact, Mono.den, MvPolynomial.coeff_monomial,
      Mono.degs, MvPolynomial.coeff_C, hz, Var.exact, f64Var, F64.val]
  · have : (Finsupp.single 1 1 : ℕ →₀ ℕ) ≠ Finsupp.single i 1 := fun e => by
      have := DFunLike.congr_fun e 1
      simp [h] at this
    simp [f64c3, SCon.exact, Scalar.exact, Mono.exact, Mono.den, MvPolynomial.coeff_monomial,
      Mono.degs, MvPolynomial.coeff_C, hz, Var.exact, f64Var, F64.val, this, h]

theorem nonconst_of_coeff {c : SCon ℚ}
    (h : MvPolynomial.coeff (Finsupp.single 1 1) (c.lhs.den - c.rhs.den) ≠ 0) : c.Nonconst := by
  intro k e
  have hz : (0 : ℕ →₀ ℕ) ≠ Finsupp.single 1 1 := fun e => by simpa using DFunLike.congr_fun e 1
  rw [e, MvPolynomial.coeff_C, if_neg hz] at h
  exact h rfl

theorem f64c2_pow : f64c2.exact.PowCoeffs 1 := by
  intro i
  rw [f64c2_diff]
  split
  · exact Or.inr ⟨1, by norm_num, by norm_num⟩
  · exact Or.inl rfl

theorem f64c3_pow : f64c3.exact.PowCoeffs 1 := by
  intro i
  rw [f64c3_diff]
  split
  · exact Or.inr ⟨0, by norm_num, by norm_num⟩
  · exact Or.inl rfl

/-- `2x <= 6` implies `-x >= -4` on `float64`. -/
example : ∃ r, f64c2.implies (.s f64c3) = .ok r ∧
    (r = true ↔ ∀ ρ, f64c2.exact.Sat ρ → f64c3.exact.Sat ρ) :=
  implies_float64_exact_partial (w := 1) f64c2_plain f64c3_plain
    (nonconst_of_coeff (by rw [f64c2_diff]; norm_num))
    (nonconst_of_coeff (by rw [f64c3_diff]; norm_num)) f64c2_pow f64c3_pow f64c2_within f64c3_within
    (by norm_num) (by norm_num) (by norm_num) (by norm_num) (x := (f64Var 1).exact)
    (y := (f64Var 1).exact) rfl
    (by rintro u (h | h) <;> simp_all [f64c2, SCon.exact, Scalar.exact, Mono.exact, Scalar.Mentions])
    (by rintro u (h | h) <;> simp_all [f64c3, SCon.exact, Scalar.exact, Mono.exact, Scalar.Mentions])

example : f64c2.implies (.s f64c3) = .ok true := by
  have e : (Con.s f64c2).implies (.s f64c3) = (Con.s f64c2).exact.implies (.s f64c3.exact) :=
    implies_float64 (w := 1) f64c2_within f64c3_within (by norm_num)
      (show Con.Divides _ (.s _) from
        f64c2_plain.divides (nonconst_of_coeff (by rw [f64c2_diff]; norm_num)) f64c2_pow)
      (show Con.Divides _ (.s _) from
        f64c3_plain.divides (nonconst_of_coeff (by rw [f64c3_diff]; norm_num)) f64c3_pow)
      (by norm_num) (by norm_num) (by norm_num) (by norm_num)
  have e' : f64c2.implies (.s f64c3) = f64c2.exact.implies (.s f64c3.exact) := e
  rw [e']
  decide +kernel

/-- The vector constraint with the entry `2x <= 6`. -/
def f64c4 : Con F64 := .v ⟨.m [⟨.fin 2, [1], [f64Var 1]⟩], .k [.fin 6], .le⟩

example : ∃ b, f64c4.implies (.s f64c3) = .ok b ∧
    (b = true → ∀ ρ, f64c4.exact.Sat ρ → f64c3.exact.Sat ρ) := by
  have he : ∀ s ∈ f64c4.exact.entries.flatten, s = f64c2.exact := by
    intro s hs
    fin_cases hs
    rfl
  refine implies_float64_sound_partial (w := 1) (A := 6) (u := 0)
    ⟨Expr.okDeg_canon 1 (by decide +kernel), Expr.okDeg_canon 1 (by decide +kernel),
      ⟨1, 1, by decide, by decide, by decide, by decide⟩, Or.inr (Or.inl rfl)⟩
    (fun s hs => ?_) f64c3_plain (nonconst_of_coeff (by rw [f64c3_diff]; norm_num))
    (fun s hs => ?_) f64c3_pow ⟨?_, ?_⟩ f64c3_within (by norm_num) (by norm_num) (by norm_num)
    (by norm_num)
  · rw [he s hs]
    exact ⟨f64c2_plain, nonconst_of_coeff (by rw [f64c2_diff]; norm_num)⟩
  · rw [he s hs]
    exact f64c2_pow
  · intro row hr s hs
    fin_cases hr
    fin_cases hs
    exact mono_within (n := 2) (by norm_num) (by norm_num)
  · intro row hr s hs
    fin_cases hr
    fin_cases hs
    exact k_within (n := 6) (by norm_num) (by norm_num)

/-- The vectors `(2x)` and `(3y)` on `float64` at a 0/1 assignment. -/
example {ρ : ℕ → ℚ} (hρ : ∀ i, ρ i = 0 ∨ ρ i = 1) :
    ∀ e, (Expr.v (.m [⟨.fin 2, [1], [f64Var 1]⟩])).plus (.v (.m [⟨.fin 3, [1], [f64Var 2]⟩])) = .ok e →
      e.exact.ValuesAt ρ (!![2 * ρ 1 + 3 * ρ 2] : Matrix (Fin 1) (Fin 1) ℚ) := by
  intro e he
  have wa : ∀ (q : ℚ) (n : ℤ) (i : ℕ), q = n → |q| ≤ 3 →
      (Expr.v (.m [⟨.fin q, [1], [f64Var i]⟩])).Within 0 3 := by
    intro q n i hq hb row hr s hs
    fin_cases hr
    fin_cases hs
    exact mono_within (n := n) (by rw [hq]; norm_num) hb
  have va : ∀ (q : ℚ) (i : ℕ), (Expr.v (.m [⟨.fin q, [1], [f64Var i]⟩])).exact.ValuesAt ρ
      (!![q * ρ i] : Matrix (Fin 1) (Fin 1) ℚ) := by
    intro q i
    simp [Expr.ValuesAt, Expr.grid, Vec.entries, Scalar.value, Scalar.den_mono, Mono.den_eq_prod,
      Expr.exact, Vec.exact, Mono.exact, Var.exact, f64Var, F64.val]
  have := (array_float64_binary (r := 1) (k := 1) (by decide) (by decide)
    (Expr.okDeg_canon 1 (by decide +kernel)) (Expr.okDeg_canon 1 (by decide +kernel))
    (va 2 1) (va 3 2) (wa 2 2 1 (by norm_num) (by norm_num)) (wa 3 3 2 (by norm_num) (by norm_num))
    (by norm_num) (by norm_num) (by norm_num) (by norm_num) (fun i _ => hρ i)).1 e he
  simpa using this

end Verif
